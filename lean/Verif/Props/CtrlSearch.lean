import Verif.Model.Ctrl
import Mathlib.Tactic.Linarith
import Mathlib.Tactic.NormNum

/-!
# C21 (grid search), C24 (planned schedule)
-/

namespace Verif.Ctrl
open Verif

variable {S C : Type}

/-! ## C21 -/

theorem argminScan_spec (t : List ℝ) (bi : ℕ) (bv : ℝ) (k : ℕ) (pre : List ℝ) (hk : pre.length = k) (hbi : bi < k)
    (hbv : pre[bi]? = some bv) (hmin : ∀ j x, pre[j]? = some x → bv ≤ x ∧ (j < bi → bv < x)) :
    ∃ v, (pre ++ t)[argminScan t bi bv k]? = some v ∧
      ∀ j x, (pre ++ t)[j]? = some x → v ≤ x ∧ (j < argminScan t bi bv k → v < x) := by
  induction t generalizing bi bv k pre with
  | nil =>
    refine ⟨bv, by simpa [argminScan] using hbv, fun j x hx => ?_⟩
    rw [List.append_nil] at hx
    exact hmin j x hx
  | cons y t ih =>
    have happ : pre ++ y :: t = (pre ++ [y]) ++ t := by simp
    unfold argminScan
    split
    · next hlt =>
      rw [happ]
      apply ih k y (k + 1) (pre ++ [y]) (by simp [hk]) (by omega)
      · rw [List.getElem?_append_right (by omega)]; simp [hk]
      · intro j x hx
        by_cases hj : j < k
        · rw [List.getElem?_append_left (by omega)] at hx
          have := (hmin j x hx).1
          exact ⟨by linarith, fun _ => by linarith⟩
        · have hjk : j = k := by
            have := (List.getElem?_eq_some_iff.1 hx).1
            simp [hk] at this; omega
          subst hjk
          rw [List.getElem?_append_right (by omega)] at hx
          simp [hk] at hx
          exact ⟨by rw [hx], fun h => absurd h (lt_irrefl _)⟩
    · next hge =>
      rw [happ]
      apply ih bi bv (k + 1) (pre ++ [y]) (by simp [hk]) (by omega)
      · rw [List.getElem?_append_left (by omega)]; exact hbv
      · intro j x hx
        by_cases hj : j < k
        · rw [List.getElem?_append_left (by omega)] at hx
          exact hmin j x hx
        · have hjk : j = k := by
            have := (List.getElem?_eq_some_iff.1 hx).1
            simp [hk] at this; omega
          subst hjk
          rw [List.getElem?_append_right (by omega)] at hx
          simp [hk] at hx
          exact ⟨by rw [← hx]; linarith, fun h => by omega⟩

theorem argmin_spec (l : List ℝ) (h : l ≠ []) :
    ∃ i v, argmin l = .ok i ∧ l[i]? = some v ∧ ∀ j x, l[j]? = some x → v ≤ x ∧ (j < i → v < x) := by
  cases l with
  | nil => exact absurd rfl h
  | cons y t =>
    obtain ⟨v, h1, h2⟩ := argminScan_spec t 0 y 1 [y] rfl (by omega) rfl (by
      intro j x hx
      cases j with
      | zero => simp at hx; exact ⟨by rw [hx], fun h => by omega⟩
      | succ j => simp at hx)
    exact ⟨_, v, rfl, h1, h2⟩

theorem trialLoop_length (trial : ℝ × ℝ → S → (ℝ × C) × S) (l : List (ℝ × ℝ)) (s : S) :
    (trialLoop trial l s).1.length = l.length := by
  induction l generalizing s with
  | nil => rfl
  | cons v t ih => simp [trialLoop, ih]

/-- The state just before the `i`-th trial. -/
def stateBefore (trial : ℝ × ℝ → S → (ℝ × C) × S) (vals : List (ℝ × ℝ)) (s : S) (i : ℕ) : S :=
  (vals.take i).foldl (fun s v => (trial v s).2) s

theorem trialLoop_getElem? (trial : ℝ × ℝ → S → (ℝ × C) × S) (l : List (ℝ × ℝ)) (s : S) (i : ℕ) :
    (trialLoop trial l s).1[i]? = (l[i]?).map fun v => (trial v (stateBefore trial l s i)).1 := by
  induction l generalizing s i with
  | nil => simp [trialLoop]
  | cons v t ih =>
    cases i with
    | zero => simp [trialLoop, stateBefore]
    | succ i => simp [trialLoop, stateBefore, ih]

theorem trialLoop_state (trial : ℝ × ℝ → S → (ℝ × C) × S) (l : List (ℝ × ℝ)) (s : S) :
    (trialLoop trial l s).2 = stateBefore trial l s l.length := by
  induction l generalizing s with
  | nil => rfl
  | cons v t ih => simp [trialLoop, ih, stateBefore]

/-- C21. The pairs tried are exactly `log10regVec × dmfacVec`, each once, gain outermost: position `b·n + a` holds the `a`-th
regularisation with the `b`-th gain. -/
theorem C21_pairs {α β : Type*} (regs : List α) (facs : List β) :
    (valsList regs facs).length = regs.length * facs.length ∧
    ∀ a b (ha : a < regs.length) (hb : b < facs.length),
      (valsList regs facs)[b * regs.length + a]? = some (regs[a], facs[b]) := by
  constructor
  · induction facs with
    | nil => simp [valsList]
    | cons f t ih => simp only [valsList, List.flatMap_cons, List.length_append, List.length_map, List.length_cons] at *; rw [ih]; ring
  · intro a b ha hb
    induction facs generalizing b with
    | nil => simp at hb
    | cons f t ih =>
      have hc : valsList regs (f :: t) = regs.map (fun x => (x, f)) ++ valsList regs t := by simp [valsList]
      cases b with
      | zero =>
        rw [hc, List.getElem?_append_left (by simp; omega)]
        simp [ha]
      | succ b =>
        rw [hc, List.getElem?_append_right (by simp; nlinarith)]
        have := ih b (by simpa using hb)
        rw [List.length_map]
        have e : (b + 1) * regs.length + a - regs.length = b * regs.length + a := by
          rw [Nat.succ_mul]; omega
        rw [e, this]; simp

/-- C21. Grid search with at least one regularisation and one gain succeeds; the pair it reports is one of the requested ones, the
command and intensity it returns are those measured for that very pair, that intensity is the smallest of all pairs tried, and earlier
pairs were strictly worse. -/
theorem C21_best (trial : ℝ × ℝ → S → (ℝ × C) × S) (regs facs : List ℝ) (s : S) (hr : regs ≠ []) (hf : facs ≠ []) :
    ∃ b s' i, gridSearch trial regs facs s = .ok (b, s') ∧
      (valsList regs facs)[i]? = some (b.log10reg, b.dmfac) ∧ b.log10reg ∈ regs ∧ b.dmfac ∈ facs ∧
      (b.inorm, b.cmd) = (trial (b.log10reg, b.dmfac) (stateBefore trial (valsList regs facs) s i)).1 ∧
      s' = stateBefore trial (valsList regs facs) s (valsList regs facs).length ∧
      ∀ j v, (valsList regs facs)[j]? = some v →
        b.inorm ≤ (trial v (stateBefore trial (valsList regs facs) s j)).1.1 ∧
        (j < i → b.inorm < (trial v (stateBefore trial (valsList regs facs) s j)).1.1) := by
  set vals := valsList regs facs with hv
  have hne : vals ≠ [] := by
    have h := (C21_pairs regs facs).1
    intro e
    rw [← hv, e] at h
    have h1 : 0 < regs.length := List.length_pos_iff.2 hr
    have h2 : 0 < facs.length := List.length_pos_iff.2 hf
    simp at h
    rcases h with h | h
    · exact hr h
    · exact hf h
  have hne' : (trialLoop trial vals s).1.map Prod.fst ≠ [] := by
    intro e
    have := congrArg List.length e
    rw [List.length_map, trialLoop_length] at this
    exact hne (List.length_eq_zero_iff.1 this)
  obtain ⟨i, x, hi, hx, hmin⟩ := argmin_spec _ hne'
  rw [List.getElem?_map] at hx
  obtain ⟨r, hri, rfl⟩ := Option.map_eq_some_iff.1 hx
  have hri' := hri
  rw [trialLoop_getElem?] at hri
  obtain ⟨v, hvi, rfl⟩ := Option.map_eq_some_iff.1 hri
  refine ⟨⟨(trial v (stateBefore trial vals s i)).1.2, v.1, v.2, (trial v (stateBefore trial vals s i)).1.1⟩, _, i, ?_, hvi, ?_, ?_, rfl,
    trialLoop_state trial vals s, ?_⟩
  · unfold gridSearch
    simp only [← hv]
    rw [hi]
    change (match vals[i]?, (trialLoop trial vals s).1[i]? with
      | some v, some r => Except.ok (({ cmd := r.2, log10reg := v.1, dmfac := v.2, inorm := r.1 } : Best C), (trialLoop trial vals s).2)
      | _, _ => Except.error PyErr.indexError) = _
    rw [hvi, hri']
  · have hm := List.mem_of_getElem? hvi
    rw [hv, valsList, List.mem_flatMap] at hm
    obtain ⟨y, hy, hm⟩ := hm
    obtain ⟨x, hx', rfl⟩ := List.mem_map.1 hm
    exact hx'
  · have hm := List.mem_of_getElem? hvi
    rw [hv, valsList, List.mem_flatMap] at hm
    obtain ⟨y, hy, hm⟩ := hm
    obtain ⟨x, hx, rfl⟩ := List.mem_map.1 hm
    exact hy
  · intro j w hw
    exact hmin j _ (by rw [List.getElem?_map, trialLoop_getElem?, hw]; rfl)

/-- C21. With no regularisation or no gain requested the search fails with `ValueError`. -/
theorem C21_empty (trial : ℝ × ℝ → S → (ℝ × C) × S) (regs facs : List ℝ) (s : S) (h : regs = [] ∨ facs = []) :
    gridSearch trial regs facs s = .error .valueError := by
  have : valsList regs facs = [] := by
    rcases h with h | h
    · subst h; simp [valsList]
    · subst h; simp [valsList]
  unfold gridSearch
  simp only [this]
  rfl

/-- C21 in the state-free case (trials do not influence one another): the returned pair minimises the intensity over the whole grid. -/
theorem C21_best_stateless (f : ℝ × ℝ → ℝ) (g : ℝ × ℝ → C) (regs facs : List ℝ) (hr : regs ≠ []) (hf : facs ≠ []) :
    ∃ b, gridSearch (fun v (_ : Unit) => ((f v, g v), ())) regs facs () = .ok (b, ()) ∧
      b.log10reg ∈ regs ∧ b.dmfac ∈ facs ∧ b.cmd = g (b.log10reg, b.dmfac) ∧
      ∀ r ∈ regs, ∀ k ∈ facs, f (b.log10reg, b.dmfac) ≤ f (r, k) := by
  obtain ⟨b, s', i, h1, h2, h3, h4, h5, h6, h7⟩ := C21_best (fun v (_ : Unit) => ((f v, g v), ())) regs facs () hr hf
  refine ⟨b, h1, h3, h4, (Prod.ext_iff.1 h5).2, fun r hr' k hk => ?_⟩
  have e : b.inorm = f (b.log10reg, b.dmfac) := (Prod.ext_iff.1 h5).1
  rw [← e]
  obtain ⟨a, ha, rfl⟩ := List.getElem_of_mem hr'
  obtain ⟨c, hc, rfl⟩ := List.getElem_of_mem hk
  exact (h7 _ _ ((C21_pairs regs facs).2 a c ha hc)).1

example : ∃ b s', gridSearch (fun v (_ : Unit) => (((v.1 + 2) ^ 2 + v.2, v), ())) [-3, -2, -1] [1, 0.5] () = .ok (b, s') := by
  obtain ⟨b, s', i, h, -⟩ := C21_best (fun v (_ : Unit) => (((v.1 + 2) ^ 2 + v.2, v), ())) [-3, -2, -1] [1, 0.5] () (by simp) (by simp)
  exact ⟨b, s', h⟩

/-! ## C24 -/

/-- C24. Iteration with a plain real code and no grid search: uses exactly the scheduled value and the remembered gain (1 if none), never
touches the remembered regularisation. -/
theorem C24_real_code (trial : ℝ × ℝ → S → (ℝ × C) × S) (regs facs : List ℝ) (x : ℝ) (mem : Memory) (s : S) :
    planned trial regs facs ⟨x, 0, false⟩ mem s = .ok
      { cmd := (trial (x, mem.bestFac.getD 1) s).1.2, regUsed := x
        mem := { bestReg := mem.bestReg, bestFac := some (mem.bestFac.getD 1) }, st := (trial (x, mem.bestFac.getD 1) s).2 } := by
  simp [planned, scheduledStep, bind, Except.bind, pure, Except.pure]

/-- C24. Iteration with an imaginary code and no grid search: uses the remembered best regularisation plus the real part as offset. -/
theorem C24_offset_code (trial : ℝ × ℝ → S → (ℝ × C) × S) (regs facs : List ℝ) (x y r : ℝ) (hy : y ≠ 0) (fac : Option ℝ) (s : S) :
    planned trial regs facs ⟨x, y, false⟩ ⟨some r, fac⟩ s = .ok
      { cmd := (trial (r + x, fac.getD 1) s).1.2, regUsed := r + x
        mem := { bestReg := some r, bestFac := some (fac.getD 1) }, st := (trial (r + x, fac.getD 1) s).2 } := by
  simp [planned, scheduledStep, hy, bind, Except.bind, pure, Except.pure]

/-- C24. Asking for the best regularisation before any grid search raises `AttributeError`. -/
theorem C24_no_search_yet (trial : ℝ × ℝ → S → (ℝ × C) × S) (regs facs : List ℝ) (x y : ℝ) (hy : y ≠ 0) (fac : Option ℝ) (s : S) :
    planned trial regs facs ⟨x, y, false⟩ ⟨none, fac⟩ s = .error .attributeError := by
  simp [planned, scheduledStep, hy, bind, Except.bind]

/-- C24. A grid-search iteration: the memory becomes the pair found; with code `0 + 1j` the command found by the search is used as is (no
further evaluation), with `x + 1j` the best regularisation plus `x` and the best gain are used, with a real code `x` the regularisation
is `x` and the gain is the best gain. -/
theorem C24_grid (trial : ℝ × ℝ → S → (ℝ × C) × S) (regs facs : List ℝ) (x y : ℝ) (mem : Memory) (s : S) (b : Best C) (s' : S)
    (hg : gridSearch trial regs facs s = .ok (b, s')) :
    ∃ o, planned trial regs facs ⟨x, y, true⟩ mem s = .ok o ∧ o.mem = ⟨some b.log10reg, some b.dmfac⟩ ∧
      (y ≠ 0 → x = 0 → o.cmd = b.cmd ∧ o.regUsed = b.log10reg ∧ o.st = s') ∧
      (y ≠ 0 → x ≠ 0 → o.cmd = (trial (b.log10reg + x, b.dmfac) s').1.2 ∧ o.regUsed = b.log10reg + x) ∧
      (y = 0 → o.cmd = (trial (x, b.dmfac) s').1.2 ∧ o.regUsed = x) := by
  unfold planned
  rw [if_pos rfl, hg]
  by_cases hy : y = 0
  · subst hy
    refine ⟨_, by simp [scheduledStep, bind, Except.bind, pure, Except.pure]; rfl, rfl, ?_, ?_, ?_⟩ <;> simp
  · by_cases hx : x = 0
    · subst hx
      refine ⟨_, by simp [hy, bind, Except.bind, pure, Except.pure]; rfl, rfl, ?_, ?_, ?_⟩ <;> simp [hy]
    · refine ⟨_, by simp [hy, hx, scheduledStep, bind, Except.bind, pure, Except.pure]; rfl, rfl, ?_, ?_, ?_⟩ <;> simp [hy, hx]

/-- C24, over whole runs: in every run that does not fail, at every iteration without a grid search the remembered regularisation is
unchanged, and at every iteration with one it becomes the pair found - so the value used by an imaginary code is the one of the
most recent grid search. -/
theorem C24_run (regs facs : List ℝ) (its : List (Slot × (ℝ × ℝ → S → (ℝ × C) × S))) (mem : Memory) (s : S) (os : List (PlanOut S C))
    (h : plannedRun regs facs its mem s = .ok os) (k : ℕ) (it : Slot × (ℝ × ℝ → S → (ℝ × C) × S)) (o : PlanOut S C)
    (hit : its[k]? = some it) (ho : os[k]? = some o) :
    ∃ before : Memory × S, before = (match k with | 0 => (mem, s) | k' + 1 => ((os[k']?).map fun p => (p.mem, p.st)).getD (mem, s)) ∧
      planned it.2 regs facs it.1 before.1 before.2 = .ok o ∧
      (it.1.grid = false → o.mem.bestReg = before.1.bestReg) ∧
      (it.1.grid = true → ∃ b s', gridSearch it.2 regs facs before.2 = .ok (b, s') ∧ o.mem.bestReg = some b.log10reg ∧
        o.mem.bestFac = some b.dmfac) ∧
      (it.1.im = 0 → o.regUsed = it.1.re) ∧
      (it.1.im ≠ 0 → ∃ r, o.mem.bestReg = some r ∧ o.regUsed = r + it.1.re) := by
  have single : ∀ (it : Slot × (ℝ × ℝ → S → (ℝ × C) × S)) (mem : Memory) (s : S) (o : PlanOut S C),
      planned it.2 regs facs it.1 mem s = .ok o →
      (it.1.grid = false → o.mem.bestReg = mem.bestReg) ∧
      (it.1.grid = true → ∃ b s', gridSearch it.2 regs facs s = .ok (b, s') ∧ o.mem.bestReg = some b.log10reg ∧
        o.mem.bestFac = some b.dmfac) ∧
      (it.1.im = 0 → o.regUsed = it.1.re) ∧
      (it.1.im ≠ 0 → ∃ r, o.mem.bestReg = some r ∧ o.regUsed = r + it.1.re) := by
    intro it mem s o hp
    obtain ⟨⟨x, y, g⟩, trial⟩ := it
    simp only at hp ⊢
    cases g with
    | false =>
      by_cases hy : y = 0
      · subst hy
        rw [C24_real_code] at hp
        obtain rfl := Except.ok.inj hp
        simp
      · rcases mem with ⟨_ | r, fac⟩
        · rw [C24_no_search_yet _ _ _ _ _ hy] at hp; cases hp
        · rw [C24_offset_code _ _ _ _ _ _ hy] at hp
          obtain rfl := Except.ok.inj hp
          simp [hy]
    | true =>
      cases hg : gridSearch trial regs facs s with
      | error e =>
        unfold planned at hp
        rw [if_pos rfl, hg] at hp
        cases hp
      | ok bs =>
        obtain ⟨b, s'⟩ := bs
        obtain ⟨o', ho', hm, h1, h2, h3⟩ := C24_grid trial regs facs x y mem s b s' hg
        rw [ho'] at hp
        obtain rfl := Except.ok.inj hp
        refine ⟨by simp, fun _ => ⟨b, s', rfl, by rw [hm], by rw [hm]⟩, fun hy => (h3 hy).2, fun hy => ⟨b.log10reg, by rw [hm], ?_⟩⟩
        by_cases hx : x = 0
        · rw [(h1 hy hx).2.1, hx]; ring
        · exact (h2 hy hx).2
  induction its generalizing mem s os k with
  | nil => simp at hit
  | cons it0 its ih =>
    obtain ⟨slot, trial⟩ := it0
    unfold plannedRun at h
    cases hp : planned trial regs facs slot mem s with
    | error e => rw [hp] at h; cases h
    | ok o0 =>
      rw [hp] at h
      cases hr : plannedRun regs facs its o0.mem o0.st with
      | error e => simp only [bind, Except.bind, hr] at h; cases h
      | ok rest =>
        simp only [bind, Except.bind, hr, pure, Except.pure] at h
        obtain rfl := Except.ok.inj h
        cases k with
        | zero =>
          simp at hit ho
          subst hit; subst ho
          exact ⟨(mem, s), rfl, hp, single (slot, trial) mem s o0 hp⟩
        | succ k =>
          simp at hit ho
          obtain ⟨before, hb, hrest⟩ := ih o0.mem o0.st rest hr k hit ho
          refine ⟨before, ?_, hrest⟩
          rw [hb]
          cases k with
          | zero => simp
          | succ k =>
            have hl : k < rest.length := by
              have := (List.getElem?_eq_some_iff.1 ho).1; omega
            simp [hl]

/-- a run of three iterations: grid search with code `1j`, then real code -2, then offset code `0.5 + 1j` -/
example : ∃ os, plannedRun [-3, -2] [1, 0.5]
    [(⟨0, 1, true⟩, fun v (_ : Unit) => ((v.1 ^ 2, v.2), ())), (⟨-2, 0, false⟩, fun v _ => ((v.1, v.2), ())),
     (⟨0.5, 1, false⟩, fun v _ => ((v.1, v.2), ()))] ⟨none, none⟩ () = .ok os ∧ os.length = 3 := by
  obtain ⟨b, s', i, h, -⟩ := C21_best (fun v (_ : Unit) => ((v.1 ^ 2, v.2), ())) [-3, -2] [1, 0.5] () (by simp) (by simp)
  obtain ⟨o, ho, hm, -⟩ := C24_grid (fun v (_ : Unit) => ((v.1 ^ 2, v.2), ())) [-3, -2] [1, 0.5] 0 1 ⟨none, none⟩ () b s' h
  unfold plannedRun plannedRun plannedRun plannedRun
  rw [ho]
  simp only [bind, Except.bind, C24_real_code, hm]
  rw [C24_offset_code _ _ _ _ _ _ (by norm_num)]
  exact ⟨_, rfl, rfl⟩

end Verif.Ctrl
