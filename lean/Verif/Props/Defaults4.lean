import Verif.Props.Defaults3

/-! # C108 optional parameters (continued): the setup succeeds, and doing it again changes nothing -/

namespace Verif.Defaults
open Verif Verif.Config Relation

variable {env : Env} {limit : ℕ} {cfg cfg' : Cfg}

/-! ## Specification -/

/-- The types the setup relies on: numbers of things are nonnegative integers, lengths and voltages are scalars, the path of the package is a string. -/
def WellTyped (c : String) (v : PyVal) : Prop :=
  if c ∈ ["Nsbp", "compact.star.count", "dm1.Nact", "dm2.Nact"] then ∃ n : ℕ, v = .int n
  else if c ∈ ["lambda0", "P1.D", "dm1.Vmax", "dm2.Vmax"] then ∃ x, v.scalar = some x
  else if c = "path.falco" then ∃ s, v = .str s
  else True

/-! ## Lemmas -/

/-- Names a guard reads without `hasattr`. -/
def Guard.needs : Guard → List String
  | .missing ps _ => ps
  | .has ps _ => ps
  | .truthy f _ => [f]
  | .dmInd _ => ["dm_ind"]

/-- Names known to exist if the guard holds. -/
def Guard.gives : Guard → List String
  | .has _ n => [n]
  | _ => []

/-- No AttributeError is possible if all names of `A` exist. -/
def Stmt.safe (A : List String) (s : Stmt) : Bool :=
  (s.conds.flatMap Guard.needs).all A.contains && s.reads.all (A ++ s.conds.flatMap Guard.gives).contains && s.parents.all (A ++ s.conds.flatMap Guard.gives).contains

/-- `safe` along a list of assignments; `H` are the names known to exist if `mp.flagSim` is true. -/
def safeAll : List String → List String → List Stmt → Bool
  | _, _, [] => true
  | A, H, s :: ss => s.safe A && match s.conds with
    | [] => safeAll (s.name :: A) H ss
    | [.missing _ n] => safeAll (if n == s.name then n :: A else A) H ss
    | [.truthy f true, .missing _ n] => safeAll A (if f == "flagSim" && n == s.name then n :: H else H) ss
    | [.truthy f false, .missing _ n] => safeAll (if f == "flagSim" && n == s.name && H.contains n then n :: A else A) H ss
    | _ => safeAll A H ss

theorem look_of_present {c : String} (hp : Plain cfg) (h : cfg c ≠ .missing) : ∃ v, cfg c = .plain v ∧ look (limit + 1) cfg c = .ok v := by
  rcases plain_cases hp c with hm | ⟨v, hv⟩
  · exact absurd hm h
  · exact ⟨v, hv, look_plain hv⟩

theorem lookAll_of_present (hp : Plain cfg) : ∀ {rs : List String}, (∀ r ∈ rs, cfg r ≠ .missing) →
    ∃ vs, lookAll (limit + 1) cfg rs = .ok vs ∧ List.Forall₂ (fun r v => cfg r = .plain v) rs vs
  | [], _ => ⟨[], rfl, .nil⟩
  | r :: rs, h => by
    obtain ⟨v, hv, hl⟩ := look_of_present (limit := limit) hp (h r (by simp))
    obtain ⟨vs, hvs, hf⟩ := lookAll_of_present (rs := rs) hp fun r hr => h r (by simp [hr])
    exact ⟨v :: vs, by simp [lookAll, hl, hvs, bind, Except.bind, pure, Except.pure], .cons hv hf⟩

theorem hasattr_plain (hp : Plain cfg) (c : String) : ∃ b, hasattr (limit + 1) cfg c = .ok b ∧ (b = true → cfg c ≠ .missing) := by
  rcases plain_cases hp c with hm | ⟨v, hv⟩
  · exact ⟨false, by simp [hasattr, look_missing hm], by simp⟩
  · exact ⟨true, by simp [hasattr, look_plain hv], by simp [hv]⟩

theorem guard_ok (hp : Plain cfg) {g : Guard} (h : ∀ r ∈ g.needs, cfg r ≠ .missing) : ∃ b, g.eval (limit + 1) cfg = .ok b ∧ (b = true → ∀ r ∈ g.gives, cfg r ≠ .missing) := by
  cases g with
  | missing ps c =>
    obtain ⟨vs, hvs, _⟩ := lookAll_of_present (limit := limit) (rs := ps) hp h
    obtain ⟨b, hb, _⟩ := hasattr_plain (limit := limit) hp c
    exact ⟨!b, by simp [Guard.eval, hvs, hb, bind, Except.bind, pure, Except.pure], by simp [Guard.gives]⟩
  | has ps c =>
    obtain ⟨vs, hvs, _⟩ := lookAll_of_present (limit := limit) (rs := ps) hp h
    obtain ⟨b, hb, hc⟩ := hasattr_plain (limit := limit) hp c
    exact ⟨b, by simp [Guard.eval, hvs, hb, bind, Except.bind], by simpa [Guard.gives] using hc⟩
  | truthy f b =>
    obtain ⟨v, _, hl⟩ := look_of_present (limit := limit) hp (h f (by simp [Guard.needs]))
    exact ⟨_, by simp only [Guard.eval, hl, bind, Except.bind, pure, Except.pure]; rfl, by simp [Guard.gives]⟩
  | dmInd k =>
    obtain ⟨v, _, hl⟩ := look_of_present (limit := limit) hp (h "dm_ind" (by simp [Guard.needs]))
    exact ⟨_, by simp only [Guard.eval, hl, bind, Except.bind, pure, Except.pure]; rfl, by simp [Guard.gives]⟩

theorem guards_ok (hp : Plain cfg) : ∀ {gs : List Guard}, (∀ r ∈ gs.flatMap Guard.needs, cfg r ≠ .missing) →
    ∃ b, guards (limit + 1) cfg gs = .ok b ∧ (b = true → ∀ r ∈ gs.flatMap Guard.gives, cfg r ≠ .missing)
  | [], _ => ⟨true, rfl, by simp⟩
  | g :: gs, h => by
    obtain ⟨b, hb, hc⟩ := guard_ok (limit := limit) hp (g := g) fun r hr => h r (by simp [hr])
    obtain ⟨b', hb', hc'⟩ := guards_ok hp (gs := gs) fun r hr => h r (by rw [List.flatMap_cons]; exact List.mem_append_right _ hr)
    cases b with
    | false => exact ⟨false, by simp [guards, hb, bind, Except.bind, pure, Except.pure], by simp⟩
    | true =>
      refine ⟨b', by simp [guards, hb, hb', bind, Except.bind], fun h r hr => ?_⟩
      rw [List.flatMap_cons, List.mem_append] at hr
      exact hr.elim (hc rfl r) (hc' h r)

/-- The right-hand side works for well-typed values and gives one. -/
def Stmt.Typed (s : Stmt) : Prop := ∀ vs, List.Forall₂ WellTyped s.reads vs → ∃ v, s.value vs = .ok v ∧ WellTyped s.name v

theorem stmt_succeeds {A : List String} {s : Stmt} (hp : Plain cfg) (hA : ∀ r ∈ A, cfg r ≠ .missing) (hs : s.safe A = true) (ht : s.Typed) (hw : ∀ c v, cfg c = .plain v → WellTyped c v) :
    ∃ c2, s.exec (limit + 1) cfg = .ok c2 ∧ (∀ c v, c2 c = .plain v → WellTyped c v) := by
  simp only [Stmt.safe, Bool.and_eq_true, List.all_eq_true, List.contains_eq_mem, decide_eq_true_eq] at hs
  obtain ⟨⟨h1, h2⟩, h3⟩ := hs
  obtain ⟨b, hb, hgive⟩ := guards_ok (limit := limit) hp fun r hr => hA r (h1 r hr)
  cases b with
  | false => exact ⟨cfg, by simp [Stmt.exec, hb, bind, Except.bind, pure, Except.pure], hw⟩
  | true =>
    have hall : ∀ r ∈ A ++ s.conds.flatMap Guard.gives, cfg r ≠ .missing := fun r hr => (List.mem_append.1 hr).elim (hA r) (hgive rfl r)
    obtain ⟨vs, hvs, hf⟩ := lookAll_of_present (limit := limit) hp fun r hr => hall r (h2 r hr)
    obtain ⟨ws, hws, _⟩ := lookAll_of_present (limit := limit) hp fun r hr => hall r (h3 r hr)
    obtain ⟨v, hv, hty⟩ := ht vs (hf.imp fun r v h => hw r v h)
    refine ⟨Function.update cfg s.name (.plain v), by simp [Stmt.exec, hb, hvs, hv, hws, bind, Except.bind, pure, Except.pure], fun c u hu => ?_⟩
    by_cases hc : c = s.name
    · subst hc
      rw [Function.update_self] at hu
      injection hu with hu
      exact hu ▸ hty
    · rw [Function.update_of_ne hc] at hu
      exact hw c u hu

theorem present_after_true {c1 c2 : Cfg} {s : Stmt} {w : PyVal} {ps : List String} (hw : c1 "flagSim" = .plain w) (h : s.exec (limit + 1) c1 = .ok c2)
    (hc : s.conds = [.truthy "flagSim" w.truthy, .missing ps s.name]) : c2 s.name ≠ .missing := by
  by_cases hm : c1 s.name = .missing
  · rcases stmt_ok h with ⟨hf, _⟩ | ⟨vs, v1, ws, _, _, _, _, rfl⟩
    · rw [hc] at hf
      exact absurd hf (guards_sim hw hm)
    · simp
  · exact stmt_present h hm

theorem exec_succeeds {w : PyVal} : ∀ {ss : List Stmt} {A H : List String} {cfg : Cfg}, Plain cfg → cfg "flagSim" = .plain w → "flagSim" ∉ ss.map Stmt.name → (∀ r ∈ A, cfg r ≠ .missing) →
    (∀ r ∈ H, w.truthy = true → cfg r ≠ .missing) → safeAll A H ss = true → (∀ s ∈ ss, s.Typed) → (∀ c v, cfg c = .plain v → WellTyped c v) →
    ∃ cfg', exec (limit + 1) ss cfg = .ok cfg'
  | [], _, _, cfg, _, _, _, _, _, _, _, _ => ⟨cfg, rfl⟩
  | s :: ss, A, H, cfg, hp, hf, hfs, hA, hH, hsafe, hty, hw => by
    simp only [safeAll, Bool.and_eq_true] at hsafe
    obtain ⟨c2, h2, hw2⟩ := stmt_succeeds (limit := limit) hp hA hsafe.1 (hty s (by simp)) hw
    have hp2 : Plain c2 := fun c p hc => hp c p (stmt_plain h2 hc)
    have hf2 : c2 "flagSim" = .plain w := by
      rw [stmt_other h2 (fun h => hfs (by simp [h])), hf]
    have hA2 : ∀ r ∈ A, c2 r ≠ .missing := fun r hr => stmt_present h2 (hA r hr)
    have hH2 : ∀ r ∈ H, w.truthy = true → c2 r ≠ .missing := fun r hr ht => stmt_present h2 (hH r hr ht)
    have key : ∀ A' H', (∀ r ∈ A', c2 r ≠ .missing) → (∀ r ∈ H', w.truthy = true → c2 r ≠ .missing) → safeAll A' H' ss = true → ∃ cfg', exec (limit + 1) (s :: ss) cfg = .ok cfg' := by
      intro A' H' hA' hH' hs'
      obtain ⟨c3, h3⟩ := exec_succeeds hp2 hf2 (fun h => hfs (by simp [h])) hA' hH' hs' (fun s hs => hty s (by simp [hs])) hw2
      exact ⟨c3, by simp [exec, h2, h3, bind, Except.bind]⟩
    have hs2 := hsafe.2
    split at hs2
    · rename_i hc
      refine key _ _ ?_ hH2 hs2
      intro r hr
      rcases List.mem_cons.1 hr with rfl | hr
      · rcases stmt_ok h2 with ⟨hf, _⟩ | ⟨vs, v1, ws, _, _, _, _, rfl⟩
        · rw [hc] at hf; cases hf
        · simp
      · exact hA2 r hr
    · rename_i ps n hc
      refine key _ _ ?_ hH2 hs2
      intro r hr
      split at hr
      · rename_i hn
        simp only [beq_iff_eq] at hn
        subst hn
        rcases List.mem_cons.1 hr with rfl | hr
        · exact present_of_missing h2 hc
        · exact hA2 r hr
      · exact hA2 r hr
    · rename_i f ps n hc
      refine key _ _ hA2 ?_ hs2
      intro r hr ht
      split at hr
      · rename_i hn
        simp only [Bool.and_eq_true, beq_iff_eq] at hn
        obtain ⟨rfl, rfl⟩ := hn
        rcases List.mem_cons.1 hr with rfl | hr
        · exact present_after_true hf h2 (by rw [hc, ht])
        · exact hH2 r hr ht
      · exact hH2 r hr ht
    · rename_i f ps n hc
      refine key _ _ ?_ hH2 hs2
      intro r hr
      split at hr
      · rename_i hn
        simp only [Bool.and_eq_true, beq_iff_eq, List.contains_eq_mem, decide_eq_true_eq] at hn
        obtain ⟨⟨rfl, rfl⟩, hmem⟩ := hn
        rcases List.mem_cons.1 hr with rfl | hr
        · cases ht : w.truthy with
          | true => exact hH2 _ hmem ht
          | false => exact present_after_true hf h2 (by rw [hc, ht])
        · exact hA2 r hr
      · exact hA2 r hr
    · exact key _ _ hA2 hH2 hs2

theorem typed_const {line : ℕ} {gs : List Guard} {ps rs : List String} {n : String} {v : PyVal} (h : WellTyped n v) : Stmt.Typed ⟨line, gs, ps, n, rs, const v⟩ := fun _ _ => ⟨v, rfl, h⟩

theorem typed_dflt_const {line : ℕ} {ps rs : List String} {n : String} {v : PyVal} (h : WellTyped n v) : (dflt line ps n rs (const v)).Typed := fun _ _ => ⟨v, rfl, h⟩

/-- The assignment without its right-hand side. -/
def Stmt.strip (s : Stmt) : Stmt := { s with value := const .obj }

theorem safeAll_strip : ∀ (A H : List String) (ss : List Stmt), safeAll A H (ss.map Stmt.strip) = safeAll A H ss
  | _, _, [] => rfl
  | A, H, s :: ss => by
    simp only [List.map_cons, safeAll, safeAll_strip _ _ ss]
    rfl

theorem strip_eq (env : Env) : (script env).map Stmt.strip = (script env0).map Stmt.strip := rfl

theorem script_safe0 : safeAll (Required ++ ["Nsbp", "dm1.Nact", "dm2.Nact"]) [] (script env0) = true := by decide +kernel

theorem script_safe (env : Env) : safeAll (Required ++ ["Nsbp", "dm1.Nact", "dm2.Nact"]) [] (script env) = true := by
  rw [← safeAll_strip, strip_eq, safeAll_strip, script_safe0]

theorem typed_last {line : ℕ} {gs : List Guard} {ps : List String} {a b n : String} (h : ∀ v, WellTyped n v) : Stmt.Typed ⟨line, gs, ps, n, [a, b], last⟩ := by
  intro vs hvs
  cases hvs with
  | cons h1 h2 => cases h2 with
    | cons h2 h3 => cases h3; exact ⟨_, rfl, h _⟩

theorem typed_join {line : ℕ} {gs : List Guard} {ps parts : List String} {n : String} (h : ∀ v, WellTyped n v) : Stmt.Typed ⟨line, gs, ps, n, ["path", "path.falco"], join parts⟩ := by
  intro vs hvs
  cases hvs with
  | cons h1 h2 => cases h2 with
    | cons h2 h3 =>
      cases h3
      simp only [WellTyped] at h2
      norm_num at h2
      obtain ⟨s, rfl⟩ := h2
      exact ⟨_, rfl, h _⟩

theorem ones_ok {c : String} {x : ℝ} (hc : c ∈ ["Nsbp", "compact.star.count", "dm1.Nact", "dm2.Nact"]) {vs : List PyVal} {v : PyVal} (hl : vs.getLast? = some v) (hv : WellTyped c v) : ∃ u, ones x vs = .ok u := by
  rw [WellTyped, if_pos hc] at hv
  obtain ⟨k, rfl⟩ := hv
  exact ⟨.arr (List.replicate k x), by simp [ones, hl]⟩

theorem typed_ones {line : ℕ} {gs : List Guard} {ps : List String} {n c : String} {x : ℝ} (hc : c ∈ ["Nsbp", "compact.star.count", "dm1.Nact", "dm2.Nact"]) (h : ∀ v, WellTyped n v) :
    Stmt.Typed ⟨line, gs, ps, n, [c], ones x⟩ := by
  intro vs hvs
  cases hvs with
  | @cons _ v _ _ h1 h2 =>
    cases h2
    obtain ⟨u, hu⟩ := ones_ok (x := x) (vs := [v]) hc rfl h1
    exact ⟨u, hu, h u⟩

theorem typed_ones3 {line : ℕ} {gs : List Guard} {ps : List String} {n a b c : String} {x : ℝ} (hc : c ∈ ["Nsbp", "compact.star.count", "dm1.Nact", "dm2.Nact"]) (h : ∀ v, WellTyped n v) :
    Stmt.Typed ⟨line, gs, ps, n, [a, b, c], ones x⟩ := by
  intro vs hvs
  cases hvs with
  | @cons _ v1 _ _ h1 h2 => cases h2 with
    | @cons _ v2 _ _ h2 h3 => cases h3 with
      | @cons _ v3 _ _ h3 h4 =>
        cases h4
        obtain ⟨u, hu⟩ := ones_ok (x := x) (vs := [v1, v2, v3]) hc rfl h3
        exact ⟨u, hu, h u⟩

theorem typed_halfOnes {line : ℕ} {gs : List Guard} {ps : List String} {n a b d : String} (ha : a ∈ ["lambda0", "P1.D", "dm1.Vmax", "dm2.Vmax"]) (hb : b ∈ ["Nsbp", "compact.star.count", "dm1.Nact", "dm2.Nact"])
    (hab : a ∉ ["Nsbp", "compact.star.count", "dm1.Nact", "dm2.Nact"]) (h : ∀ v, WellTyped n v) : Stmt.Typed ⟨line, gs, ps, n, [d, a, d, b, d, b], halfOnes⟩ := by
  intro vs hvs
  cases hvs with
  | cons h1 h2 => cases h2 with
    | cons h2 h3 => cases h3 with
      | cons h3 h4 => cases h4 with
        | cons h4 h5 => cases h5 with
          | cons h5 h6 => cases h6 with
            | cons h6 h7 =>
              cases h7
              rw [WellTyped, if_neg hab, if_pos ha] at h2
              rw [WellTyped, if_pos hb] at h4 h6
              obtain ⟨x, hx⟩ := h2
              obtain ⟨k, rfl⟩ := h4
              obtain ⟨k', rfl⟩ := h6
              refine ⟨.mat k k (x / 2), ?_, h _⟩
              simp [halfOnes, hx]

theorem typed_mas {line : ℕ} {gs : List Guard} {ps : List String} {n : String} (h : ∀ v, WellTyped n v) : Stmt.Typed ⟨line, gs, ps, n, ["lambda0", "P1", "P1.D"], mas⟩ := by
  intro vs hvs
  cases hvs with
  | cons h1 h2 => cases h2 with
    | cons h2 h3 => cases h3 with
      | cons h3 h4 =>
        cases h4
        rw [WellTyped, if_neg (by decide), if_pos (by decide)] at h1 h3
        obtain ⟨x, hx⟩ := h1
        obtain ⟨y, hy⟩ := h3
        refine ⟨.num (1 / (x / y * 180 / Real.pi * 3600 * 1000)), ?_, h _⟩
        simp [mas, hx, hy]

theorem script_typed (env : Env) : ∀ s ∈ script env, s.Typed := by
  unfold script
  repeat
    refine List.forall_mem_cons.2 ⟨by
      first
      | (refine typed_dflt_const ?_; simp [WellTyped]; done)
      | (refine typed_const ?_; simp [WellTyped]; done)
      | (refine typed_last ?_; simp [WellTyped])
      | (refine typed_join ?_; simp [WellTyped])
      | (refine typed_ones ?_ ?_ <;> simp [WellTyped])
      | (refine typed_ones3 ?_ ?_ <;> simp [WellTyped])
      | (refine typed_halfOnes ?_ ?_ ?_ ?_ <;> simp [WellTyped])
      | (refine typed_mas ?_; simp [WellTyped])
      | (refine typed_dflt_const ?_; rw [WellTyped, if_pos (by decide)]; exact ⟨1, rfl⟩)
      | (refine typed_const ?_; rw [WellTyped, if_neg (by decide), if_pos (by decide)]; exact ⟨_, rfl⟩), ?_⟩
  intro s hs
  cases hs

/-! ## Theorems -/

/-- C108: with plain values of the expected types and the parameters without default present (also `Nsbp` and the actuator numbers), the setup raises no exception, whatever else is given or left out. -/
theorem C108_succeeds (hp : Plain cfg) (hr : ∀ c ∈ Required ++ ["Nsbp", "dm1.Nact", "dm2.Nact"], cfg c ≠ .missing) (hw : ∀ c v, cfg c = .plain v → WellTyped c v) :
    ∃ cfg', setOptional env (limit + 1) cfg = .ok cfg' := by
  obtain ⟨w, hf⟩ := (plain_cases hp "flagSim").resolve_left (hr _ (by decide))
  exact exec_succeeds hp hf (by rw [names_eq]; decide +kernel) hr (by simp) (script_safe env) (script_typed env) hw

/-- A minimal configuration: two sub-bands, two 32 × 32 DMs of which the first is controlled, with a limit of 200. -/
noncomputable def minimal : Cfg := fun c =>
  if c = "Nsbp" then .plain (.int 2) else if c = "dm1.Nact" ∨ c = "dm2.Nact" then .plain (.int 32) else if c = "lambda0" ∨ c = "P1.D" then .plain (.num 1)
  else if c = "dm_ind" then .plain (.arr [1]) else if c = "flagSim" then .plain (.bool true) else if c = "dm1.Vmax" then .plain (.num 200)
  else if c ∈ ["ctrl", "F3", "P1", "Fend", "dm1", "dm2"] then .plain .obj else .missing

theorem minimal_plain : Plain minimal := by
  intro c p h
  unfold minimal at h
  split_ifs at h

/-- It meets the hypotheses: the setup succeeds, keeps the limit of DM1 and gives DM2 the default. -/
example : ∃ cfg', setOptional env 1 minimal = .ok cfg' ∧ cfg' "dm1.Vmax" = .plain (.num 200) ∧ cfg' "dm2.Vmax" = .plain (.num 1000) ∧ cfg' "dm1.biasMap" = .plain (.mat 32 32 (200 / 2)) := by
  obtain ⟨cfg', h⟩ := C108_succeeds (env := env) (limit := 0) minimal_plain (by simp [Required, minimal]) (by
    intro c v h
    unfold minimal at h
    split_ifs at h with h1 h2 h3 h4 h5 h6 h7
    · injection h with h; subst h1 h; exact ⟨2, rfl⟩
    · injection h with h; subst h; rcases h2 with rfl | rfl <;> exact ⟨32, rfl⟩
    · injection h with h; subst h; rcases h3 with rfl | rfl <;> (rw [WellTyped, if_neg (by decide), if_pos (by decide)]; exact ⟨1, rfl⟩)
    · subst h4; simp [WellTyped]
    · subst h5; simp [WellTyped]
    · injection h with h; subst h6 h; (rw [WellTyped, if_neg (by decide), if_pos (by decide)]; exact ⟨200, rfl⟩)
    · simp only [List.mem_cons, List.not_mem_nil, or_false] at h7
      rcases h7 with rfl | rfl | rfl | rfl | rfl | rfl <;> simp [WellTyped])
  have hf : minimal "flagSim" = .plain (.bool true) := by simp [minimal]
  obtain ⟨v1, a1, a2, _, _, _, a3, _⟩ := C108_dm1 h minimal_plain hf
  obtain ⟨v2, b1, _, b2, _⟩ := C108_dm2 h minimal_plain hf
  have hv1 := a2 (.num 200) (by simp [minimal])
  subst hv1
  refine ⟨cfg', h, a1, ?_, ?_⟩
  · rw [b1, b2 (by simp [minimal]) true rfl]; simp
  · obtain ⟨n, x, c1, c2, c3⟩ := a3 (by simp [minimal])
    rw [show minimal "dm1.Nact" = .plain (.int 32) by simp [minimal]] at c1
    simp only [Item.plain.injEq, PyVal.int.injEq] at c1
    simp only [PyVal.scalar, Option.some.injEq] at c2
    have hn : n = 32 := by exact_mod_cast c1.symm
    rw [c3, ← c2, hn]

end Verif.Defaults
