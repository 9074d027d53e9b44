import Verif.Props.Defaults4

/-! # C108 optional parameters (continued): lazy values, and a second run -/

namespace Verif.Defaults
open Verif Verif.Config Relation

variable {env : Env} {limit : ℕ} {cfg cfg' : Cfg}

/-- Evaluation sees only the attributes it reads. -/
theorem res_transfer {cur : Cfg} {R : Set String} (hcl : ∀ r ∈ R, ∀ c, Needs cfg r c → c ∈ R) (hag : ∀ r ∈ R, cur r = cfg r) {p : Prog PyVal} {r : Except Err PyVal} (h : Res cfg p r) :
    (∀ c, Asks cfg p c → c ∈ R) → Res cur p r := by
  induction h with
  | ret v => exact fun _ => .ret v
  | fail e => exact fun _ => .fail e
  | @readOk c d k v r h1 h2 ih1 ih2 =>
    intro hA
    have hc : c ∈ R := hA c .here
    have hb : body cur c = body cfg c := by unfold body; rw [hag c hc]
    exact .readOk (by rw [hb]; exact ih1 fun x hx => hcl c hc x hx) (ih2 fun x hx => hA x (.ok h1 hx))
  | @readErr c d k e h1 h2 ih1 =>
    intro hA
    have hc : c ∈ R := hA c .here
    have hb : body cur c = body cfg c := by unfold body; rw [hag c hc]
    exact .readErr (by rw [hb]; exact ih1 fun x hx => hcl c hc x hx) h2
  | @readDflt c k v r h1 h2 ih1 ih2 =>
    intro hA
    have hc : c ∈ R := hA c .here
    have hb : body cur c = body cfg c := by unfold body; rw [hag c hc]
    exact .readDflt (by rw [hb]; exact ih1 fun x hx => hcl c hc x hx) (ih2 fun x hx => hA x (.dflt h1 hx))

/-- The agreement of `C108_lazy` before the check of optional parameter `c`. -/
theorem before_check (L : Finset String) (hL : ∀ c p, cfg c = .lazy p → c ∈ L) (hlim : L.card < limit) (R : Set String) (hcl : ∀ r ∈ R, ∀ c, Needs cfg r c → c ∈ R)
    (hv : ∀ r ∈ R, ∃ v, Has cfg r (.ok v)) (ho : ∀ r ∈ R, r ∉ Overwritten) {ss : List Stmt} (hss : ∀ s ∈ ss, s ∈ script env) (h : exec limit ss cfg = .ok cfg') :
    (∀ r ∈ R, cfg' r = cfg r) ∧ ∀ c p, cfg' c = .lazy p → c ∈ L := by
  refine exec_inv (P := fun x => (∀ r ∈ R, x r = cfg r) ∧ ∀ c p, x c = .lazy p → c ∈ L) h ⟨fun _ _ => rfl, hL⟩ fun s hs a b hab ⟨h1, h2⟩ => ?_
  refine ⟨fun r hr => ?_, fun c p hc => h2 c p (stmt_plain hab hc)⟩
  obtain ⟨v, hvr⟩ := hv r hr
  have hbody : body a r = body cfg r := by unfold body; rw [h1 r hr]
  have hres : Has a r (.ok v) := by
    unfold Has; rw [hbody]
    exact res_transfer hcl h1 hvr fun x hx => hcl r hr x hx
  obtain ⟨o, hr1, hr2, _⟩ := C48_lazy a L h2 limit hlim r
  have hlook : look limit a r = .ok v := by
    unfold look; rw [hr1]
    rw [(hr2 v).2 hres]
  rw [stmt_kept hab (fun hn => guarded_of_over (hss s hs) (by rw [overTargets, overwritten_eq]; exact ho r hr) hn) hlook, h1 r hr]

/-- C108, lazy values. Let `R` be parameters whose expressions read only parameters of `R` (a plain value reads nothing), each with a value and none of them `Overwritten`. They all are as the user gave them afterwards, and have the same
values. (`L` contains the lazy parameters; Python's recursion limit is larger than their number.) -/
theorem C108_lazy (L : Finset String) (hL : ∀ c p, cfg c = .lazy p → c ∈ L) (hlim : L.card < limit) (R : Set String) (hcl : ∀ r ∈ R, ∀ c, Needs cfg r c → c ∈ R)
    (hv : ∀ r ∈ R, ∃ v, Has cfg r (.ok v)) (ho : ∀ r ∈ R, r ∉ Overwritten) (h : setOptional env limit cfg = .ok cfg') :
    ∀ r ∈ R, cfg' r = cfg r ∧ ∀ v, Has cfg r (.ok v) → Has cfg' r (.ok v) := by
  have hfin := before_check (env := env) L hL hlim R hcl hv ho (fun s hs => hs) h
  intro r hr
  refine ⟨hfin.1 r hr, fun v hvr => ?_⟩
  unfold Has
  rw [show body cfg' r = body cfg r by unfold body; rw [hfin.1 r hr]]
  exact res_transfer hcl hfin.1 hvr fun x hx => hcl r hr x hx

/-- The optional parameters whose default does not depend on `mp.flagSim`. -/
def Unconditional : List String :=
  Optional.filter fun c => !(["dm1.Vmin", "dm1.Vmax", "dm2.Vmin", "dm2.Vmax"].contains c)

/-- The state at the first check of an optional parameter. -/
theorem first_check {c : String} (hc : c ∈ Unconditional) (h : setOptional env limit cfg = .ok cfg') :
    ∃ (n : ℕ) (c1 : Cfg) (b : Bool), exec limit ((script env).take n) cfg = .ok c1 ∧ c1 c = cfg c ∧ hasattr limit c1 c = .ok b := by
  simp only [Unconditional, List.mem_filter, Bool.not_eq_true', List.contains_eq_mem, decide_eq_false_iff_not] at hc
  have h1 := List.all_eq_true.1 optional_dflt c hc.1
  rw [← dflt_names env] at h1
  simp only [Bool.or_eq_true, List.contains_eq_mem, decide_eq_true_eq, hc.2, or_false] at h1
  obtain ⟨s, hs, hname⟩ := List.mem_map.1 h1
  obtain ⟨hs, hd⟩ := List.mem_filter.1 hs
  -- the first assignment to `c`
  have hex : ∃ n : ℕ, ∃ s : Stmt, (script env)[n]? = some s ∧ s.name = c := by
    obtain ⟨n, hn⟩ := List.getElem?_of_mem hs
    exact ⟨n, s, hn, hname⟩
  classical
  obtain ⟨s', hn', hname'⟩ := Nat.find_spec hex
  obtain ⟨c1, c2, e1, e2, e3⟩ := exec_at hn' h
  refine ⟨Nat.find hex, c1, ?_⟩
  have hother : c1 c = cfg c := by
    refine exec_other e1 fun hm => ?_
    obtain ⟨s2, hs2, hn2⟩ := List.mem_map.1 hm
    obtain ⟨i, hi⟩ := List.getElem?_of_mem hs2
    have hlt : i < Nat.find hex := by
      by_contra hge
      rw [List.getElem?_take, if_neg hge] at hi
      cases hi
    rw [List.getElem?_take, if_pos hlt] at hi
    exact Nat.find_min hex hlt ⟨s2, hi, hn2⟩
  have hg : s'.isDflt = true := by
    have hall : ∀ s ∈ script env, s.name ∈ ((script env).filter Stmt.isDflt).map Stmt.name → s.isDflt = true := by
      have key : ((script env).map fun s => (s.name, s.isDflt)) = ((script env0).map fun s => (s.name, s.isDflt)) := rfl
      have hb : ((script env0).map fun s => (s.name, s.isDflt)).all (fun p => p.2 || !(((script env0).filter Stmt.isDflt).map Stmt.name).contains p.1) = true := by decide +kernel
      intro s hs hm
      rw [← key, List.all_eq_true] at hb
      have := hb (s.name, s.isDflt) (List.mem_map_of_mem hs)
      rw [dflt_names] at hm
      simpa [hm] using this
    exact hall s' (List.mem_of_getElem? hn') (by rw [hname']; exact h1)
  obtain ⟨ps, hcs⟩ := isDflt_conds hg
  rw [hname'] at hcs
  obtain ⟨b, hb, _⟩ := bind_ok e2
  rw [hcs] at hb
  obtain ⟨b, hb, _⟩ := bind_ok hb
  obtain ⟨_, _, hb⟩ := bind_ok hb
  obtain ⟨b, hb, _⟩ := bind_ok hb
  exact ⟨b, e1, hother, hb⟩

/-- C108: an exception other than AttributeError in the expression of an optional parameter is not swallowed (`R` as in `C108_lazy`, containing what the expression reads). -/
theorem C108_lazy_error (L : Finset String) (hL : ∀ c p, cfg c = .lazy p → c ∈ L) (hlim : L.card < limit) (R : Set String) (hcl : ∀ r ∈ R, ∀ c, Needs cfg r c → c ∈ R)
    (hv : ∀ r ∈ R, ∃ v, Has cfg r (.ok v)) (ho : ∀ r ∈ R, r ∉ Overwritten) (c : String) (hc : c ∈ Unconditional) (hR : ∀ x, Needs cfg c x → x ∈ R) (k : ℕ) (hk : Has cfg c (.error (.other k))) :
    ∃ e, setOptional env limit cfg = .error e := by
  cases h : setOptional env limit cfg with
  | error e => exact ⟨e, rfl⟩
  | ok cfg' =>
    exfalso
    obtain ⟨n, c1, b, e1, h1, h2⟩ := first_check hc h
    obtain ⟨ha, hLa⟩ := before_check (env := env) L hL hlim R hcl hv ho (fun s hs => List.mem_of_mem_take hs) e1
    obtain ⟨o, hr1, _, hr2, _⟩ := C48_lazy c1 L hLa limit hlim c
    have hres : Has c1 c (.error (.other k)) := by
      unfold Has
      rw [show body c1 c = body cfg c by unfold body; rw [h1]]
      exact res_transfer hcl ha hk hR
    have hlook : look limit c1 c = .error (.other k) := by
      unfold look; rw [hr1, (hr2 _).2 hres]
    simp [hasattr, hlook] at h2

/-- A concrete case of `C108_lazy_error`: the expression of the number of threads reads the wavelength and then raises. -/
example (cfg : Cfg) (h0 : ∀ c, ∃ v, cfg c = .plain v) :
    ∃ e, setOptional env 2 (Function.update cfg "Nthreads" (.lazy (.read "lambda0" none fun _ => .fail (.other 3)))) = .error e := by
  obtain ⟨v, hv⟩ := h0 "lambda0"
  set cfg1 := Function.update cfg "Nthreads" (.lazy (.read "lambda0" none fun _ => .fail (.other 3))) with hcfg
  have hl : cfg1 "lambda0" = .plain v := by rw [hcfg, Function.update_of_ne (by decide), hv]
  have hN : cfg1 "Nthreads" = .lazy (.read "lambda0" none fun _ => .fail (.other 3)) := by simp [hcfg]
  have hv1 : Has cfg1 "lambda0" (.ok v) := by unfold Has body; rw [hl]; exact .ret v
  refine C108_lazy_error (R := {"lambda0"}) {"Nthreads"} (fun c p hc => ?_) (by simp) ?_ ?_ ?_ "Nthreads" (by decide +kernel) ?_ 3 ?_
  · by_contra hne
    obtain ⟨w, hw⟩ := h0 c
    rw [hcfg, Function.update_of_ne (by simpa using hne), hw] at hc
    cases hc
  · rintro r rfl c hc
    unfold Needs body at hc
    rw [hl] at hc
    cases hc
  · rintro r rfl; exact ⟨v, hv1⟩
  · rintro r rfl; decide +kernel
  · intro x hx
    unfold Needs body at hx
    rw [hN] at hx
    cases hx with
    | here => rfl
    | ok h1 h2 => cases h2
  · unfold Has body; rw [hN]; exact .readOk hv1 (.fail _)

/-- C108: a circular definition of an optional parameter is not swallowed either. -/
theorem C108_lazy_circular (c : String) (hc : c ∈ Unconditional) (k : PyVal → Prog PyVal) (hcfg : cfg c = .lazy (.read c none k)) : ∃ e, setOptional env limit cfg = .error e := by
  cases h : setOptional env limit cfg with
  | error e => exact ⟨e, rfl⟩
  | ok cfg' =>
    exfalso
    obtain ⟨n, c1, b, e1, h1, h2⟩ := first_check hc h
    rw [hcfg] at h1
    match limit with
    | 0 => simp [hasattr, look, readAttr] at h2
    | 1 => simp [hasattr, look, readAttr, h1, runProg] at h2
    | l + 2 => simp [hasattr, look, readAttr, h1, runProg] at h2

/-- C108: a lazy value that depends on a parameter which gets its default only later is dropped without a message: the user's expression for the number of threads reads the number of exposures,
which the user left at its default; afterwards the number of threads is the number of processors. -/
theorem C108_lazy_violated (hlim : 1 ≤ limit) (hN : cfg "Nthreads" = .lazy (.read "detector.Nexp" none fun v => .ret v)) (hE : cfg "detector.Nexp" = .missing) (h : setOptional env (limit + 1) cfg = .ok cfg') :
    cfg' "Nthreads" = .plain env.cpus ∧ cfg' "detector.Nexp" = .plain (.int 1) := by
  constructor
  · obtain ⟨c1, c2, e1, e2, e3⟩ := exec_at (n := 17) rfl h
    have h1 : c1 "Nthreads" = cfg "Nthreads" := exec_other e1 (by rw [List.map_take, names_eq, ← List.map_take]; decide +kernel)
    have h2 : c1 "detector.Nexp" = .missing := by rw [exec_other e1 (by rw [List.map_take, names_eq, ← List.map_take]; decide +kernel), hE]
    have hl : look (limit + 1) c1 "Nthreads" = .error .attribute := by
      obtain ⟨l, rfl⟩ : ∃ l, limit = l + 1 := ⟨limit - 1, by omega⟩
      simp [look, readAttr, h1, hN, runProg, h2]
    have h3 : c2 "Nthreads" = .plain env.cpus := by
      rcases stmt_ok e2 with ⟨hf, _⟩ | ⟨vs, v1, ws, _, _, hv, _, rfl⟩
      · exfalso
        simp [dflt, guards, Guard.eval, lookAll, hasattr, hl, bind, Except.bind, pure, Except.pure] at hf
      · injection hv with hv
        rw [← hv]; simp [dflt]
    exact exec_kept e3 (fun hm => absurd (show "Nthreads" ∈ Overwritten from by
      rw [← overwritten_eq env]
      obtain ⟨s, hs, hn⟩ := List.mem_map.1 hm
      obtain ⟨hs, hg⟩ := List.mem_filter.1 hs
      exact hn ▸ List.mem_map_of_mem (List.mem_filter.2 ⟨List.mem_of_mem_drop hs, hg⟩)) (by decide +kernel)) h3
  · obtain ⟨c1, c2, e1, e2, e3⟩ := exec_at (n := 134) rfl h
    have h2 : c1 "detector.Nexp" = .missing := by rw [exec_other e1 (by rw [List.map_take, names_eq, ← List.map_take]; decide +kernel), hE]
    have h3 : c2 "detector.Nexp" = .plain (.int 1) := by
      rcases stmt_ok e2 with ⟨hf, _⟩ | ⟨vs, v1, ws, _, _, hv, _, rfl⟩
      · exfalso
        obtain ⟨b, hb, hg⟩ := bind_ok hf
        cases b with
        | true => cases hg
        | false =>
          obtain ⟨_, _, hb⟩ := bind_ok hb
          simp [hasattr, look_missing h2, bind, Except.bind, pure, Except.pure] at hb
      · injection hv with hv
        rw [← hv]; simp [dflt]
    exact exec_kept e3 (fun hm => absurd (show "detector.Nexp" ∈ Overwritten from by
      rw [← overwritten_eq env]
      obtain ⟨s, hs, hn⟩ := List.mem_map.1 hm
      obtain ⟨hs, hg⟩ := List.mem_filter.1 hs
      exact hn ▸ List.mem_map_of_mem (List.mem_filter.2 ⟨List.mem_of_mem_drop hs, hg⟩)) (by decide +kernel)) h3

theorem lookAll_congr {a b : Cfg} (ha : Plain a) (hb : Plain b) : ∀ {rs : List String}, (∀ r ∈ rs, a r = b r) → lookAll (limit + 1) a rs = lookAll (limit + 1) b rs
  | [], _ => rfl
  | r :: rs, h => by
    have h1 : look (limit + 1) a r = look (limit + 1) b r := by
      rcases plain_cases ha r with hm | ⟨v, hv⟩
      · rw [look_missing hm, look_missing (by rw [← h r (by simp), hm])]
      · rw [look_plain hv, look_plain (by rw [← h r (by simp), hv])]
    simp only [lookAll, h1, lookAll_congr ha hb (rs := rs) fun r hr => h r (by simp [hr])]

/-- The conversion factor from milliarcseconds. -/
theorem mas_at (hp : Plain cfg) (h : setOptional env (limit + 1) cfg = .ok cfg') : ∃ vs v, lookAll (limit + 1) cfg ["lambda0", "P1", "P1.D"] = .ok vs ∧ mas vs = .ok v ∧ cfg' "mas2lam0D" = .plain v := by
  obtain ⟨c1, c2, e1, e2, e3⟩ := exec_at (n := 142) rfl h
  rcases stmt_ok e2 with ⟨hf, _⟩ | ⟨vs, v, ws, _, hvs, hv, _, rfl⟩
  · cases hf
  · refine ⟨vs, v, ?_, hv, ?_⟩
    · rw [← hvs]
      refine lookAll_congr hp (exec_plain e1 hp) fun r hr => (exec_other e1 ?_).symm
      rw [List.map_take, names_eq, ← List.map_take]
      simp only [List.mem_cons, List.not_mem_nil, or_false] at hr
      rcases hr with rfl | rfl | rfl <;> decide +kernel
    · rw [exec_other e3 (by rw [List.map_drop, names_eq, ← List.map_drop]; decide +kernel)]
      simp

/-- The stashed commands of DM8 and DM9. -/
theorem stash_at {n : ℕ} {s : Stmt} (hn : (script env)[n]? = some s) (hp : Plain cfg) (h : setOptional env (limit + 1) cfg = .ok cfg') {c d : String} {ps qs : List String} {b : String}
    (hname : s.name = c) (hconds : s.conds = [.has ps b, .has qs d]) (hr : s.reads = [b, d] ∨ ∃ b', s.reads = [b', d]) (hv : s.value = last)
    (h1 : c ∉ ((script env0).take n).map Stmt.name) (h2 : c ∉ ((script env0).drop (n + 1)).map Stmt.name) (h3 : d ∉ (script env0).map Stmt.name) (hb : ∀ c1 : Cfg, exec (limit + 1) ((script env).take n) cfg = .ok c1 → c1 b ≠ .missing) :
    (cfg d = .missing → cfg' c = cfg c) ∧ ∀ v, cfg d = .plain v → cfg' c = .plain v := by
  obtain ⟨c1, c2, e1, e2, e3⟩ := exec_at hn h
  have hp1 := exec_plain e1 hp
  have hd : c1 d = cfg d := exec_other e1 fun hx => h3 (by rw [List.map_take, names_eq] at hx; exact List.mem_of_mem_take hx)
  have hc : c1 c = cfg c := exec_other e1 (by rw [List.map_take, names_eq, ← List.map_take]; exact h1)
  rw [exec_other e3 (by rw [List.map_drop, names_eq, ← List.map_drop]; exact h2)]
  rcases stmt_ok e2 with ⟨hf, hcc⟩ | ⟨vs, v, ws, ht, hvs, hv', _, rfl⟩
  · refine ⟨fun _ => hcc ▸ hc, fun v hv => ?_⟩
    exfalso
    rw [hconds] at hf
    obtain ⟨x, hx, hf⟩ := bind_ok hf
    obtain ⟨_, _, hx⟩ := bind_ok hx
    cases x with
    | false =>
      have := (hasattr_ok hx).2 rfl
      obtain ⟨u, _, hu⟩ := look_of_present (limit := limit) hp1 (hb c1 e1)
      rw [this] at hu; cases hu
    | true =>
      obtain ⟨x, hx, hf⟩ := bind_ok hf
      obtain ⟨_, _, hx⟩ := bind_ok hx
      cases x with
      | false =>
        have := (hasattr_ok hx).2 rfl
        rw [look_plain (hd.trans hv)] at this; cases this
      | true => cases hf
  · have hread : ∃ u, look (limit + 1) c1 d = .ok u ∧ last vs = .ok u := by
      have : ∃ b', s.reads = [b', d] := hr.elim (fun h => ⟨_, h⟩) id
      obtain ⟨b', hb'⟩ := this
      rw [hb'] at hvs
      obtain ⟨x, _, hvs⟩ := bind_ok hvs
      obtain ⟨vs', hvs', hvs⟩ := bind_ok hvs
      injection hvs with hvs; subst hvs
      obtain ⟨u, hu, hvs'⟩ := bind_ok hvs'
      injection hvs' with hvs'; subst hvs'
      exact ⟨u, hu, rfl⟩
    obtain ⟨u, hu, hl⟩ := hread
    rw [hv, hl] at hv'
    injection hv' with hv'
    refine ⟨fun hm => ?_, fun v0 hv0 => ?_⟩
    · rw [look_missing (hd.trans hm)] at hu; cases hu
    · rw [look_plain (hd.trans hv0)] at hu
      injection hu with hu
      rw [hname, ← hv', ← hu]; simp

theorem dm8_present {c1 : Cfg} (n : ℕ) (hn : ((((script env0).take n).filter Stmt.isDflt).map Stmt.name).contains "dm8" = true) (h : exec (limit + 1) ((script env).take n) cfg = .ok c1) : c1 "dm8" ≠ .missing := by
  have : "dm8" ∈ (((script env).take n).filter Stmt.isDflt).map Stmt.name := by
    have key : ∀ l l' : List Stmt, l.map (fun s => (s.isDflt, s.name)) = l'.map (fun s => (s.isDflt, s.name)) → (l.filter Stmt.isDflt).map Stmt.name = (l'.filter Stmt.isDflt).map Stmt.name := by
      intro l
      induction l with
      | nil => intro l' h; cases l' with
        | nil => rfl
        | cons _ _ => cases h
      | cons a l ih =>
        intro l' h
        cases l' with
        | nil => cases h
        | cons a' l' =>
          simp only [List.map_cons, List.cons.injEq, Prod.mk.injEq] at h
          have := ih l' h.2
          simp only [List.filter_cons, h.1.1]
          split <;> simp [this, h.1.2]
    rw [key _ ((script env0).take n) (by rw [List.map_take, List.map_take]; congr 1)]
    simpa using hn
  obtain ⟨s, hs, hname⟩ := List.mem_map.1 this
  obtain ⟨hs, hd⟩ := List.mem_filter.1 hs
  exact hname ▸ present_dflt h hs hd

/-- C108: a second run changes nothing, in a configuration of plain values. -/
theorem C108_again {cfg'' : Cfg} (hp : Plain cfg) (h : setOptional env (limit + 1) cfg = .ok cfg') (h' : setOptional env (limit + 1) cfg' = .ok cfg'') : cfg'' = cfg' := by
  obtain ⟨w, hw⟩ : ∃ w, cfg "flagSim" = .plain w := by
    refine (plain_cases hp _).resolve_left fun hm => ?_
    obtain ⟨e, he⟩ := C108_required (env := env) (limit := limit) "flagSim" (by decide) hm
    rw [h] at he; cases he
  obtain ⟨dm, hdm⟩ : ∃ w, cfg "dm_ind" = .plain w := by
    refine (plain_cases hp _).resolve_left fun hm => ?_
    obtain ⟨e, he⟩ := C108_required (env := env) (limit := limit) "dm_ind" (by decide) hm
    rw [h] at he; cases he
  have hp' := exec_plain h hp
  have hdm' : cfg' "dm_ind" = .plain dm := (C108_kept h _).1 (by decide +kernel) _ hdm
  funext c
  by_cases hc : c ∈ Overwritten
  · have hr := C108_reset h
    have hr' := C108_reset h'
    by_cases hz : c ∈ ["dm1.NactTotal", "dm2.NactTotal", "dm3.NactTotal", "dm4.NactTotal", "dm5.NactTotal", "dm6.NactTotal", "dm7.NactTotal", "dm8.NactTotal", "dm9.NactTotal",
      "dm1.Nele", "dm2.Nele", "dm3.Nele", "dm4.Nele", "dm5.Nele", "dm6.Nele", "dm7.Nele", "dm8.Nele", "dm9.Nele"]
    · rw [hr.2 c hz, hr'.2 c hz]
    by_cases hd : c ∈ DeltaNames.map Prod.snd
    · obtain ⟨p, hpm, rfl⟩ := List.mem_map.1 hd
      have d1 := delta_at h hdm p hpm
      have d2 := delta_at h' hdm' p hpm
      cases ha : dm.anyEq p.1 with
      | true => rw [d1.1 ha, d2.1 ha]
      | false => rw [d2.2 ha]
    have hcases : c = "path.falco" ∨ c = "mas2lam0D" ∨ c = "DM8V0" ∨ c = "DM9V0" := by
      simp only [Overwritten, DeltaNames, List.mem_cons, List.not_mem_nil, or_false, List.map_cons, List.map_nil] at hc hz hd
      tauto
    rcases hcases with rfl | rfl | rfl | rfl
    · rw [hr.1, hr'.1]
    · obtain ⟨vs, v, a1, a2, a3⟩ := mas_at hp h
      obtain ⟨vs', v', b1, b2, b3⟩ := mas_at hp' h'
      have : lookAll (limit + 1) cfg ["lambda0", "P1", "P1.D"] = lookAll (limit + 1) cfg' ["lambda0", "P1", "P1.D"] := by
        refine lookAll_congr hp hp' fun r hr => (exec_other h ?_).symm
        rw [names_eq]
        simp only [List.mem_cons, List.not_mem_nil, or_false] at hr
        rcases hr with rfl | rfl | rfl <;> decide +kernel
      rw [this, b1] at a1
      injection a1 with a1
      subst a1
      rw [a2] at b2
      injection b2 with b2
      rw [a3, b3, b2]
    · have s1 := stash_at (n := 116) (c := "DM8V0") (d := "dm8.V") (b := "dm8") rfl hp h rfl rfl (.inl rfl) rfl (by decide +kernel) (by decide +kernel) (by decide +kernel) (fun c1 => dm8_present 116 (by decide +kernel))
      have s2 := stash_at (n := 116) (c := "DM8V0") (d := "dm8.V") (b := "dm8") rfl hp' h' rfl rfl (.inl rfl) rfl (by decide +kernel) (by decide +kernel) (by decide +kernel) (fun c1 => dm8_present 116 (by decide +kernel))
      have hk : cfg' "dm8.V" = cfg "dm8.V" := exec_other h (by rw [names_eq]; decide +kernel)
      rcases plain_cases hp "dm8.V" with hm | ⟨v, hv⟩
      · exact s2.1 (hk.trans hm)
      · rw [s1.2 v hv, s2.2 v (hk.trans hv)]
    · have s1 := stash_at (n := 117) (c := "DM9V0") (d := "dm9.V") (b := "dm8") rfl hp h rfl rfl (.inr ⟨"dm9", rfl⟩) rfl (by decide +kernel) (by decide +kernel) (by decide +kernel) (fun c1 => dm8_present 117 (by decide +kernel))
      have s2 := stash_at (n := 117) (c := "DM9V0") (d := "dm9.V") (b := "dm8") rfl hp' h' rfl rfl (.inr ⟨"dm9", rfl⟩) rfl (by decide +kernel) (by decide +kernel) (by decide +kernel) (fun c1 => dm8_present 117 (by decide +kernel))
      have hk : cfg' "dm9.V" = cfg "dm9.V" := exec_other h (by rw [names_eq]; decide +kernel)
      rcases plain_cases hp "dm9.V" with hm | ⟨v, hv⟩
      · exact s2.1 (hk.trans hm)
      · rw [s1.2 v hv, s2.2 v (hk.trans hv)]
  · rcases plain_cases hp' c with hm | ⟨v, hv⟩
    · by_cases ho : c ∈ Optional
      · exact absurd hm (C108_complete h hw c ho)
      · exact (C108_kept h' c).2 ho hc
    · rw [hv]; exact (C108_kept h' c).1 hc v hv

end Verif.Defaults
