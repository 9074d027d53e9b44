import Verif.Model.Run
import Mathlib.Algebra.BigOperators.Group.List.Basic
import Mathlib.Tactic.NormNum
import Mathlib.Tactic.Linarith
import Mathlib.Tactic.Ring

/-!
# C121: what `prop_run` returns
-/

namespace Verif.Run
open Verif

variable {G P F : Type}

/-! ### Specification -/

/-- Two sets of module variables show the same values of those a run sets from its arguments. -/
def SameSwitches (g g' : Glob G) : Prop :=
  g.doTable = g'.doTable ∧ g.printTotalIntensity = g'.printTotalIntensity ∧ g.n = g'.n ∧ g.verbose = g'.verbose ∧ g.printIt = g'.printIt ∧ g.phaseOffset = g'.phaseOffset

/-- A prescription whose outcome depends only on its arguments and on the switches given to `prop_run`, and that does not alter these switches.  (It may use and change any other
module variable, as long as its outcome does not depend on what it finds there.) -/
def SelfContained (presc : Presc G P F) : Prop :=
  (∀ g g' lam n pv, SameSwitches g g' → (presc g lam n pv).1 = (presc g' lam n pv).1) ∧ ∀ g lam n pv, SameSwitches (presc g lam n pv).2 g

/-- The module variables as the arguments of a run describe them; the others as in `g`. -/
def Fits (a : Args P) (gridsize : ℤ) (g : Glob G) : Prop :=
  g.doTable = a.table ∧ g.printTotalIntensity = a.printIntensity ∧ g.n = gridsize ∧ g.verbose = a.verbose ∧ g.printIt = !a.quiet ∧ g.phaseOffset = a.phaseOffset

/-! ### Lemmas -/

theorem SameSwitches.trans {a b c : Glob G} (h : SameSwitches a b) (h' : SameSwitches b c) : SameSwitches a c := by
  obtain ⟨h1, h2, h3, h4, h5, h6⟩ := h
  obtain ⟨k1, k2, k3, k4, k5, k6⟩ := h'
  exact ⟨h1.trans k1, h2.trans k2, h3.trans k3, h4.trans k4, h5.trans k5, h6.trans k6⟩

theorem SameSwitches.symm {a b : Glob G} (h : SameSwitches a b) : SameSwitches b a := by
  obtain ⟨h1, h2, h3, h4, h5, h6⟩ := h
  exact ⟨h1.symm, h2.symm, h3.symm, h4.symm, h5.symm, h6.symm⟩

theorem setGlob_fits (cfg : FftCfg) (a : Args P) (n : ℤ) (g : Glob G) : Fits a n (setGlob cfg a n g) := ⟨rfl, rfl, rfl, rfl, rfl, rfl⟩

theorem fits_same {a : Args P} {n : ℤ} {g g' : Glob G} (h : Fits a n g) (h' : Fits a n g') : SameSwitches g g' := by
  obtain ⟨h1, h2, h3, h4, h5, h6⟩ := h
  obtain ⟨k1, k2, k3, k4, k5, k6⟩ := h'
  exact ⟨h1.trans k1.symm, h2.trans k2.symm, h3.trans k3.symm, h4.trans k4.symm, h5.trans k5.symm, h6.trans k6.symm⟩

theorem badGrid_iff (n : ℤ) : badGrid n = false ↔ n = 0 ∨ ∃ k : ℕ, n = 2 ^ k := by
  unfold badGrid
  rw [bne_eq_false_iff_eq]
  match n with
  | Int.ofNat 0 => exact ⟨fun _ => .inl rfl, fun _ => by
      change ((Nat.ldiff 0 0 : ℕ) : ℤ) = 0
      simp [Nat.ldiff]⟩
  | Int.ofNat (m + 1) =>
    have e : (Int.ofNat (m + 1) : ℤ) - 1 = Int.ofNat m := by
      have : (Int.ofNat (m + 1) : ℤ) = (m : ℤ) + 1 := rfl
      rw [this]; simp
    rw [e]
    have h : Int.land (Int.ofNat (m + 1)) (Int.ofNat m) = (((m + 1) &&& (m + 1 - 1) : ℕ) : ℤ) := rfl
    rw [h]
    have h2 := Nat.and_sub_one_eq_zero_iff_isPowerOfTwo (n := m + 1) (by omega)
    rw [Int.natCast_eq_zero, h2]
    constructor
    · rintro ⟨k, hk⟩
      exact .inr ⟨k, by rw [hk]; push_cast; rfl⟩
    · rintro (h | ⟨k, hk⟩)
      · exact absurd h (by intro h; injection h; omega)
      · refine ⟨k, ?_⟩
        have : ((m + 1 : ℕ) : ℤ) = ((2 ^ k : ℕ) : ℤ) := by push_cast; push_cast at hk; exact hk
        exact_mod_cast this
  | Int.negSucc m =>
    have e : (Int.negSucc m : ℤ) - 1 = Int.negSucc (m + 1) := rfl
    rw [e]
    constructor
    · intro h
      exact absurd h (by simp only [Int.land]; exact Int.negSucc_ne_zero _)
    · rintro (h | ⟨k, hk⟩)
      · exact absurd h (Int.negSucc_ne_zero _)
      · have : (0 : ℤ) < 2 ^ k := by positivity
        have := Int.negSucc_lt_zero m
        omega

variable [AddCommGroup F] [Module ℝ F]

/-- What the loop gives for a self-contained prescription that succeeds at every wavelength. -/
theorem loop_ok (presc : Presc G P F) (hs : SelfContained presc) (n : ℤ) (pv : Option P) (g₀ : Glob G) (f : ℝ → F × ℝ) :
    ∀ (ls : List (ℝ × ℝ)) (acc : F × ℝ) (g : Glob G), SameSwitches g g₀ → (∀ r ∈ ls, (presc g₀ r.1 n pv).1 = .ok (f r.1)) →
      (loop presc n pv ls (some acc) g).1 = .ok (acc.1 + (ls.map fun r => r.2 • (f r.1).1).sum, (ls.getLast?.map fun r => (f r.1).2).getD acc.2) := by
  intro ls
  induction ls with
  | nil => intro acc g _ _; simp [loop]
  | cons r ls ih =>
    intro acc g hg hf
    obtain ⟨lam, thr⟩ := r
    have h1 : (presc g lam n pv).1 = .ok (f lam) := (hs.1 g g₀ lam n pv hg).trans (hf _ List.mem_cons_self)
    rw [loop]
    rcases hp : presc g lam n pv with ⟨res, g'⟩
    have h2 := hs.2 g lam n pv
    rw [hp] at h1 h2
    dsimp only at h1 h2
    subst h1
    dsimp only
    rw [ih _ g' (h2.trans hg) fun r hr => hf r (List.mem_cons_of_mem _ hr)]
    cases ls with
    | nil => simp
    | cons r' ls => simp [add_assoc, List.getLast?_cons]

theorem loop_first (presc : Presc G P F) (hs : SelfContained presc) (n : ℤ) (pv : Option P) (g₀ : Glob G) (f : ℝ → F × ℝ) (ls : List (ℝ × ℝ)) (hne : ls ≠ [])
    (g : Glob G) (hg : SameSwitches g g₀) (hf : ∀ r ∈ ls, (presc g₀ r.1 n pv).1 = .ok (f r.1)) :
    (loop presc n pv ls none g).1 = .ok ((ls.map fun r => r.2 • (f r.1).1).sum, (f (ls.getLast hne).1).2) := by
  cases ls with
  | nil => exact absurd rfl hne
  | cons r ls =>
    obtain ⟨lam, thr⟩ := r
    have h1 : (presc g lam n pv).1 = .ok (f lam) := (hs.1 g g₀ lam n pv hg).trans (hf _ List.mem_cons_self)
    have h2 := hs.2 g lam n pv
    rw [loop]
    rcases hp : presc g lam n pv with ⟨res, g'⟩
    rw [hp] at h1 h2
    dsimp only at h1 h2
    subst h1
    dsimp only
    rw [loop_ok presc hs n pv g₀ f ls _ g' (h2.trans hg) fun r hr => hf r (List.mem_cons_of_mem _ hr)]
    cases ls with
    | nil => simp
    | cons r' ls =>
      have e : (r' :: ls).getLast (by simp) = ls.getLast?.getD r' := by
        have h1 := List.getLast?_eq_getLast_of_ne_nil (l := r' :: ls) (by simp)
        rw [List.getLast?_cons] at h1
        exact (Option.some.inj h1).symm
      simp [List.getLast?_cons, e]

/-- The loop raises what the prescription raises first. -/
theorem loop_err (presc : Presc G P F) (hs : SelfContained presc) (n : ℤ) (pv : Option P) (g₀ : Glob G) (e : RunErr) (lam thr : ℝ) (post : List (ℝ × ℝ)) :
    ∀ (pre : List (ℝ × ℝ)) (acc : Option (F × ℝ)) (g : Glob G), SameSwitches g g₀ → (∀ r ∈ pre, ∃ y, (presc g₀ r.1 n pv).1 = .ok y) →
      (presc g₀ lam n pv).1 = .error e → (loop presc n pv (pre ++ (lam, thr) :: post) acc g).1 = .error e := by
  intro pre
  induction pre with
  | nil =>
    intro acc g hg _ he
    have h1 : (presc g lam n pv).1 = .error e := (hs.1 g g₀ lam n pv hg).trans he
    rw [List.nil_append, loop]
    rcases hp : presc g lam n pv with ⟨res, g'⟩
    rw [hp] at h1
    dsimp only at h1
    subst h1
    rfl
  | cons r pre ih =>
    intro acc g hg hf he
    obtain ⟨l, t⟩ := r
    obtain ⟨y, hy⟩ := hf _ List.mem_cons_self
    have h1 : (presc g l n pv).1 = .ok y := (hs.1 g g₀ l n pv hg).trans hy
    have h2 := hs.2 g l n pv
    rw [List.cons_append, loop]
    rcases hp : presc g l n pv with ⟨res, g'⟩
    rw [hp] at h1 h2
    dsimp only at h1 h2
    subst h1
    have hf' : ∀ r ∈ pre, ∃ y, (presc g₀ r.1 n pv).1 = .ok y := fun r hr => hf r (List.mem_cons_of_mem _ hr)
    cases acc with
    | none => exact ih _ g' (h2.trans hg) hf' he
    | some a => exact ih _ g' (h2.trans hg) hf' he

theorem loop_nil_none (presc : Presc G P F) (n : ℤ) (pv : Option P) (g : Glob G) : (loop presc n pv [] none g).1 = .error (.py .unboundLocal) := rfl

/-! ### Claims -/

/-- C121: a run is accepted only for grid sizes that are powers of two (and 0): for every other integer, negative ones included, it raises before anything is changed, and
whatever the other arguments; for these it never raises the grid size error itself (with a prescription that does not raise it). -/
theorem C121_grid (cfg : FftCfg) (presc : Presc G P F) (lambda0 : Lam) (n : ℤ) (a : Args P) (g : Glob G) :
    (¬ (n = 0 ∨ ∃ k : ℕ, n = 2 ^ k) → propRun cfg presc lambda0 n a g = (.error .exception, g)) ∧
    ((n = 0 ∨ ∃ k : ℕ, n = 2 ^ k) → (∀ l, (presc (setGlob cfg a n g) (l * (1 / 1000000)) n a.passvalue).1 ≠ .error .exception) →
      ∀ l, (propRun cfg presc (.value l) n a g).1 ≠ .error .exception) := by
  constructor
  · intro h
    have : badGrid n = true := by
      by_contra hb
      exact h ((badGrid_iff n).mp (by simpa using hb))
    unfold propRun
    rw [if_pos this]
  · intro h hp l
    have hb := (badGrid_iff n).mpr h
    unfold propRun
    rw [if_neg (by rw [hb]; decide)]
    simp only [wavelengths]
    have := hp l
    rw [loop]
    rcases hq : presc (setGlob cfg a n g) (l * (1 / 1000000)) n a.passvalue with ⟨res, g'⟩
    rw [hq] at this
    cases res with
    | error e => dsimp only at this ⊢; exact this
    | ok y => simp [loop]

/-- C121: for one wavelength (given in microns) a run returns exactly what the prescription returns for that wavelength in metres, the grid size and the passed value, image and
sampling, or raises what it raises. -/
theorem C121_single (cfg : FftCfg) (presc : Presc G P F) (l : ℝ) (n : ℤ) (hn : n = 0 ∨ ∃ k : ℕ, n = 2 ^ k) (a : Args P) (g : Glob G) :
    propRun cfg presc (.value l) n a g = presc (setGlob cfg a n g) (l * (1 / 1000000)) n a.passvalue := by
  have hb := (badGrid_iff n).mpr hn
  unfold propRun
  rw [if_neg (by rw [hb]; decide)]
  simp only [wavelengths]
  rw [loop]
  rcases hq : presc (setGlob cfg a n g) (l * (1 / 1000000)) n a.passvalue with ⟨res, g'⟩
  cases res with
  | error e => rfl
  | ok y => simp [loop]

/-- C121: the prescription sees the switches as the arguments of this run say (table, total intensity, verbose, printing unless QUIET, phase offset) and the grid size, whatever
was set before; a run with a file of two or more wavelengths starts the same way. -/
theorem C121_switches (cfg : FftCfg) (presc : Presc G P F) (l : ℝ) (n : ℤ) (hn : n = 0 ∨ ∃ k : ℕ, n = 2 ^ k) (a : Args P) (g : Glob G) :
    ∃ g0, Fits a n g0 ∧ propRun cfg presc (.value l) n a g = presc g0 (l * (1 / 1000000)) n a.passvalue ∧
      ∀ (r r' : ℝ × ℝ) (rows : List (ℝ × ℝ)) (e : RunErr), (presc g0 (r.1 * (1 / 1000000)) n a.passvalue).1 = .error e →
        propRun cfg presc (.file (some (r :: r' :: rows))) n a g = presc g0 (r.1 * (1 / 1000000)) n a.passvalue := by
  refine ⟨setGlob cfg a n g, setGlob_fits cfg a n g, C121_single cfg presc l n hn a g, fun r r' rows e he => ?_⟩
  unfold propRun
  rw [if_neg (by rw [(badGrid_iff n).mpr hn]; simp)]
  simp only [wavelengths, List.map_cons]
  unfold loop
  generalize presc (setGlob cfg a n g) (r.1 * (1 / 1000000)) n a.passvalue = q at he ⊢
  obtain ⟨q1, q2⟩ := q
  dsimp only at he
  rw [he]

/-- C121: with a file of two or more (wavelength, weight) rows, a run of a self-contained prescription returns the weighted sum of the images that single runs at these
wavelengths return, each run started from any state whatever, and the sampling of the last wavelength. -/
theorem C121_sum (cfg : FftCfg) (presc : Presc G P F) (hs : SelfContained presc) (rows : List (ℝ × ℝ)) (hr : 2 ≤ rows.length) (n : ℤ) (a : Args P) (g : Glob G)
    (g' : ℝ → Glob G) (psf : ℝ → F) (pix : ℝ → ℝ) (h : ∀ r ∈ rows, (propRun cfg presc (.value r.1) n a (g' r.1)).1 = .ok (psf r.1, pix r.1)) :
    ∃ last ∈ rows.getLast?, (propRun cfg presc (.file (some rows)) n a g).1 = .ok ((rows.map fun r => r.2 • psf r.1).sum, pix last.1) := by
  obtain ⟨r₀, r₁, rest, rfl⟩ : ∃ a b c, rows = a :: b :: c := by
    match rows, hr with
    | a :: b :: c, _ => exact ⟨a, b, c, rfl⟩
  have hn : n = 0 ∨ ∃ k : ℕ, n = 2 ^ k := by
    by_contra hn
    have := h r₀ List.mem_cons_self
    rw [(C121_grid cfg presc _ n a _).1 hn] at this
    cases this
  have hb := (badGrid_iff n).mpr hn
  set rows := r₀ :: r₁ :: rest with hrows
  refine ⟨rows.getLast (by simp [hrows]), by rw [List.getLast?_eq_getLast_of_ne_nil (by simp [hrows])]; simp, ?_⟩
  unfold propRun
  rw [if_neg (by rw [hb]; decide)]
  have hw : wavelengths (.file (some rows)) = .ok (rows.map fun r => (r.1 * (1 / 1000000), r.2)) := rfl
  rw [hw]
  dsimp only
  have hinj : ∀ x : ℝ, x * (1 / 1000000) * 1000000 = x := fun x => by ring
  have := loop_first presc hs n a.passvalue (setGlob cfg a n g) (fun x => (psf (x * 1000000), pix (x * 1000000))) (rows.map fun r => (r.1 * (1 / 1000000), r.2)) (by simp [hrows])
    (setGlob cfg a n g) ⟨rfl, rfl, rfl, rfl, rfl, rfl⟩ (by
      intro r hr
      obtain ⟨r', hr', rfl⟩ := List.mem_map.mp hr
      dsimp only
      have h2 := h r' hr'
      rw [C121_single cfg presc _ n hn] at h2
      refine (hs.1 (setGlob cfg a n g) (setGlob cfg a n (g' r'.1)) _ _ _ ⟨rfl, rfl, rfl, rfl, rfl, rfl⟩).trans (h2.trans ?_)
      rw [hinj])
  rw [this, List.map_map, List.getLast_map]
  simp only [Function.comp_def, hinj]

/-- C121: if single runs at the wavelengths before one succeed and the run at that one raises, the run over the file raises the same. -/
theorem C121_error (cfg : FftCfg) (presc : Presc G P F) (hs : SelfContained presc) (pre post : List (ℝ × ℝ)) (lam thr : ℝ) (hl : pre ≠ [] ∨ post ≠ []) (n : ℤ)
    (hn : n = 0 ∨ ∃ k : ℕ, n = 2 ^ k) (a : Args P) (g : Glob G) (e : RunErr)
    (hpre : ∀ r ∈ pre, ∃ y, (propRun cfg presc (.value r.1) n a g).1 = .ok y) (he : (propRun cfg presc (.value lam) n a g).1 = .error e) :
    (propRun cfg presc (.file (some (pre ++ (lam, thr) :: post))) n a g).1 = .error e := by
  have hb := (badGrid_iff n).mpr hn
  have hw : wavelengths (.file (some (pre ++ (lam, thr) :: post))) = .ok ((pre ++ (lam, thr) :: post).map fun r => (r.1 * (1 / 1000000), r.2)) := by
    match pre, post, hl with
    | [], p :: ps, _ => rfl
    | [q], ps, _ => rfl
    | q :: q' :: qs, ps, _ => rfl
  unfold propRun
  rw [if_neg (by rw [hb]; decide), hw]
  dsimp only
  rw [List.map_append, List.map_cons]
  refine loop_err presc hs n a.passvalue (setGlob cfg a n g) e _ _ _ _ _ _ ⟨rfl, rfl, rfl, rfl, rfl, rfl⟩ ?_ ?_
  · intro r hr
    obtain ⟨r', hr', rfl⟩ := List.mem_map.mp hr
    obtain ⟨y, hy⟩ := hpre r' hr'
    rw [C121_single cfg presc _ n hn] at hy
    exact ⟨y, hy⟩
  · rw [C121_single cfg presc _ n hn] at he
    exact he

/-- C121: what a run of a self-contained prescription returns does not depend on what happened before it: it is the same from every state of the module variables. -/
theorem C121_history (cfg : FftCfg) (presc : Presc G P F) (hs : SelfContained presc) (lambda0 : Lam) (n : ℤ) (a : Args P) (g g' : Glob G) :
    (propRun cfg presc lambda0 n a g).1 = (propRun cfg presc lambda0 n a g').1 := by
  have key : ∀ (ls : List (ℝ × ℝ)) (acc : Option (F × ℝ)) (x y : Glob G), SameSwitches x y →
      (loop presc n a.passvalue ls acc x).1 = (loop presc n a.passvalue ls acc y).1 := by
    intro ls
    induction ls with
    | nil => intro acc x y _; cases acc <;> rfl
    | cons r ls ih =>
      intro acc x y hxy
      obtain ⟨lam, thr⟩ := r
      have h1 := hs.1 x y lam n a.passvalue hxy
      have hx := hs.2 x lam n a.passvalue
      have hy := hs.2 y lam n a.passvalue
      rw [loop, loop]
      rcases hp : presc x lam n a.passvalue with ⟨res, x'⟩
      rcases hq : presc y lam n a.passvalue with ⟨res', y'⟩
      rw [hp] at h1 hx
      rw [hq] at h1 hy
      dsimp only at h1 hx hy
      subst h1
      have hxy' := hx.trans (hxy.trans hy.symm)
      cases res with
      | error e => rfl
      | ok z =>
        cases acc with
        | none => exact ih _ _ _ hxy'
        | some w => exact ih _ _ _ hxy'
  unfold propRun
  split_ifs
  · rfl
  · cases wavelengths lambda0 with
    | error e => rfl
    | ok ls => exact key ls none _ _ ⟨rfl, rfl, rfl, rfl, rfl, rfl⟩

/-- C121 violated for a file of one row: although a run at that wavelength with weight 1 would be well defined, the run raises `TypeError`, for every prescription. -/
theorem C121_one_row_violated (cfg : FftCfg) (presc : Presc G P F) (r : ℝ × ℝ) (n : ℤ) (hn : n = 0 ∨ ∃ k : ℕ, n = 2 ^ k) (a : Args P) (g : Glob G) :
    (propRun cfg presc (.file (some [r])) n a g).1 = .error (.py .typeError) := by
  have hb := (badGrid_iff n).mpr hn
  unfold propRun
  rw [if_neg (by rw [hb]; decide)]
  rfl

/-! ### A case that meets the hypotheses -/

/-- A prescription that counts its calls in the other module variables and returns the wavelength (in nanometres), times two with the phase offset. -/
def demo : Presc ℕ Unit ℝ := fun g lam _ _ => (.ok ((if g.phaseOffset then 2 else 1) * (lam * 1000000000), lam * g.n), { g with rest := g.rest + 1 })

theorem demo_self : SelfContained demo := by
  constructor
  · rintro g g' lam n pv ⟨_, _, h3, _, _, h6⟩
    simp only [demo, h3, h6]
  · intro g lam n pv
    exact ⟨rfl, rfl, rfl, rfl, rfl, rfl⟩

theorem demo_single (cfg : FftCfg) (l : ℝ) (g : Glob ℕ) :
    (propRun cfg demo (.value l) 4 {} g).1 = .ok (l * 1000, l * (1 / 1000000) * 4) := by
  rw [C121_single cfg demo l 4 (.inr ⟨2, by norm_num⟩)]
  simp only [demo, setGlob]
  congr 2
  norm_num
  ring

/-- Two wavelengths, 0.5 and 0.6 microns with weights 1 and 2, on a grid of 4: 500 + 1200, whatever the state before. -/
theorem C121_demo (cfg : FftCfg) (g : Glob ℕ) : ∃ p, (propRun cfg demo (.file (some [(1 / 2, 1), (3 / 5, 2)])) 4 {} g).1 = .ok (1700, p) := by
  obtain ⟨last, _, h⟩ := C121_sum cfg demo demo_self [(1 / 2, 1), (3 / 5, 2)] (by simp) 4 {} g (fun _ => g) (fun l => l * 1000) (fun l => l * (1 / 1000000) * 4)
    (fun r _ => demo_single cfg r.1 g)
  refine ⟨last.1 * (1 / 1000000) * 4, h.trans ?_⟩
  norm_num

end Verif.Run
