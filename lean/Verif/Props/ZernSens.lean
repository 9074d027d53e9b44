import Verif.Model.ZernSens
import Verif.Props.Source
import Verif.Props.DmConstraints

/-!
# C92: Zernike sensitivities
-/

namespace Verif.ZernSens
open Verif Verif.Dm

variable {Pup Dms : Type}

/-! ## loops -/

theorem collect_inv {ι F W : Type} (f : ι → W → F × W) (G : ι → F) (Inv : W → Prop) (h : ∀ i w, Inv w → (f i w).1 = G i ∧ Inv (f i w).2) :
    ∀ (l : List ι) (w : W), Inv w → (collect f l w).1 = l.map G ∧ Inv (collect f l w).2
  | [], w, hw => ⟨rfl, hw⟩
  | i :: t, w, hw => by
    obtain ⟨h1, h2⟩ := h i w hw
    obtain ⟨h3, h4⟩ := collect_inv f G Inv h t _ h2
    unfold collect
    exact ⟨by simp only [List.map_cons, h1, h3], h4⟩

theorem look_map {ι F : Type} [DecidableEq ι] [Inhabited F] (keys : List ι) (G : ι → F) (k : ι) (hk : k ∈ keys) : look keys (keys.map G) k = G k := by
  unfold look
  induction keys with
  | nil => simp at hk
  | cons a t ih =>
    simp only [List.map_cons, List.zip_cons_cons, List.lookup_cons]
    by_cases h : k = a
    · subst h; simp
    · have : (k == a) = false := by simpa using h
      rw [this]
      exact ih (by simpa [h] using hk)

/-- Aberrated field: `ε` metres of Zernike `j` added to the wavefront. -/
noncomputable def fAb (c : Cfg Pup Dms) (E : ℕ → Pup → ℂ) (dm : Dms) (ilam : ℕ) (pol : ℤ) (j : ℕ) (ε : ℝ) : Fin c.Neta → Fin c.Nxi → ℂ :=
  c.full ilam pol (fun p => Complex.exp (Complex.I * (2 * Real.pi / c.lam ilam * (ε * c.Zmap j p) : ℝ)) * E ilam p) dm

/-- Nominal field. -/
def fNom (c : Cfg Pup Dms) (E : ℕ → Pup → ℂ) (dm : Dms) (ilam : ℕ) (pol : ℤ) : Fin c.Neta → Fin c.Nxi → ℂ := c.full ilam pol (E ilam) dm

/-- Pixels of an annulus. -/
def pixels {a b : ℕ} (mask : Fin a → Fin b → Bool) : Finset (Fin a × Fin b) := Finset.univ.filter fun q => mask q.1 q.2

/-- The sensitivity as it is defined: the intensity of the change of field caused by the aberration, averaged over wavelengths, polarisation states and the pixels of the annulus. -/
noncomputable def Sens (c : Cfg Pup Dms) (E : ℕ → Pup → ℂ) (dm : Dms) (j : ℕ) (ε : ℝ) (mask : Fin c.Neta → Fin c.Nxi → Bool) : ℝ :=
  (∑ q ∈ pixels mask, (∑ ilam ∈ Finset.range c.Nlam, ∑ ipol ∈ Finset.range c.pols.length,
    ‖fAb c E dm ilam (c.pols.getD ipol 0) j ε q.1 q.2 - fNom c E dm ilam (c.pols.getD ipol 0) q.1 q.2‖ ^ 2) / (c.Nlam * c.pols.length)) / (pixels mask).card

theorem single_fst (c : Cfg Pup Dms) (ilam ipol : ℕ) (w : World Pup Dms) : (single c ilam ipol w).1 = fNom c w.E (c.settle w.dm) ilam (c.pols.getD ipol 0) := rfl

theorem singleZern_fst (c : Cfg Pup Dms) (ilam ipol iz : ℕ) (w : World Pup Dms) :
    (singleZern c ilam ipol iz w).1 = fAb c w.E (c.settle w.dm) ilam (c.pols.getD ipol 0) (c.nolls.getD iz 0) c.zrms := by
  unfold singleZern fAb
  dsimp only
  rw [if_pos rfl]
  congr 1
  funext p
  congr 2
  push_cast
  ring

/-- Evaluating the model again does not change what it returns: the DM objects may change at every evaluation, the field they give is that after the first. -/
def Settles (c : Cfg Pup Dms) (dm : Dms) : Prop := ∀ k ilam pol E, c.full ilam pol E (c.settle^[k + 1] dm) = c.full ilam pol E (c.settle dm)

/-- The fields which enter, and the state after the call. -/
theorem runs (c : Cfg Pup Dms) (w : World Pup Dms) (hs : Settles c w.dm) (par : Bool) :
    ∃ w1 w2 : World Pup Dms,
      (if par then pooled (fun i => single c i.1 i.2) (lamPol c) w else collect (fun i => single c i.1 i.2) (lamPol c) w) =
        ((lamPol c).map fun i => fNom c w.E (c.settle w.dm) i.1 (c.pols.getD i.2 0), w1) ∧
      (if par then pooled (fun i => singleZern c i.1 i.2.1 i.2.2) (lamPolZern c) w1 else collect (fun i => singleZern c i.1 i.2.1 i.2.2) (lamPolZern c) w1) =
        ((lamPolZern c).map fun i => fAb c w.E (c.settle w.dm) i.1 (c.pols.getD i.2.1 0) (c.nolls.getD i.2.2 0) c.zrms, w2) ∧
      w2.E = w.E ∧ w2.zern.getD ([], []) = w.zern.getD ([], []) ∧ (∃ k, w2.dm = c.settle^[k] w.dm) ∧ (par = true → w2 = w) := by
  cases par
  · let Inv : World Pup Dms → Prop := fun u => u.E = w.E ∧ u.zern.getD ([], []) = w.zern.getD ([], []) ∧ ∃ k, u.dm = c.settle^[k] w.dm
    have hset : ∀ u, Inv u → ∃ k, c.settle u.dm = c.settle^[k + 1] w.dm := by
      intro u hu
      obtain ⟨k, h⟩ := hu.2.2
      exact ⟨k, by rw [h, Function.iterate_succ_apply']⟩
    have h1 := collect_inv (fun i : ℕ × ℕ => single c i.1 i.2) (fun i => fNom c w.E (c.settle w.dm) i.1 (c.pols.getD i.2 0)) Inv
      (fun i u hu => by
        obtain ⟨k, hk⟩ := hset u hu
        refine ⟨?_, hu.1, hu.2.1, k + 1, hk⟩
        rw [single_fst, hk, hu.1]
        exact hs k _ _ _) (lamPol c) w ⟨rfl, rfl, 0, rfl⟩
    have h2 := collect_inv (fun i : ℕ × ℕ × ℕ => singleZern c i.1 i.2.1 i.2.2) (fun i => fAb c w.E (c.settle w.dm) i.1 (c.pols.getD i.2.1 0) (c.nolls.getD i.2.2 0) c.zrms) Inv
      (fun i u hu => by
        obtain ⟨k, hk⟩ := hset u hu
        refine ⟨?_, hu.1, by unfold singleZern; simpa using hu.2.1, k + 1, hk⟩
        rw [singleZern_fst, hk, hu.1]
        exact hs k _ _ _) (lamPolZern c) _ h1.2
    refine ⟨_, _, Prod.ext h1.1 rfl, Prod.ext h2.1 rfl, h2.2.1, h2.2.2.1, h2.2.2.2, by simp⟩
  · refine ⟨w, w, ?_, ?_, rfl, rfl, ⟨0, rfl⟩, fun _ => rfl⟩
    · simp [pooled, single_fst]
    · simp [pooled, singleZern_fst]

theorem mem_lamPol (c : Cfg Pup Dms) (a b : ℕ) : (a, b) ∈ lamPol c ↔ a < c.Nlam ∧ b < c.pols.length := by
  unfold lamPol
  simp [List.mem_flatMap]

theorem mem_lamPolZern (c : Cfg Pup Dms) (a b z : ℕ) : (a, b, z) ∈ lamPolZern c ↔ a < c.Nlam ∧ b < c.pols.length ∧ z < c.nolls.length := by
  unfold lamPolZern
  simp [List.mem_flatMap]

theorem sum_range_list (n : ℕ) (f : ℕ → ℝ) : ((List.range n).map f).sum = ∑ k ∈ Finset.range n, f k := by
  induction n with
  | zero => rfl
  | succ n ih => rw [List.range_succ, List.map_append, List.sum_append, ih, Finset.sum_range_succ]; simp

theorem pixel_list {a b : ℕ} (mask : Fin a → Fin b → Bool) (f : Fin a → Fin b → ℝ) :
    let l := (List.finRange a).flatMap fun e => (List.finRange b).filterMap fun x => if mask e x then some (f e x) else none
    l.sum = ∑ q ∈ pixels mask, f q.1 q.2 ∧ l.length = (pixels mask).card := by
  have row : ∀ e (l : List (Fin b)), (l.filterMap fun x => if mask e x then some (f e x) else none).sum = (l.map fun x => if mask e x then f e x else 0).sum ∧
      (l.filterMap fun x => if mask e x then some (f e x) else none).length = (l.map fun x => if mask e x then 1 else 0).sum := by
    intro e l
    induction l with
    | nil => simp
    | cons x t ih =>
      by_cases h : mask e x = true
      · simp [h, ih.1, ih.2, add_comm]
      · simp [h, ih.1, ih.2]
  have flat : ∀ {α β : Type} (l : List α) (g : α → List ℝ), (l.flatMap g).sum = (l.map fun e => (g e).sum).sum ∧ (l.flatMap g).length = (l.map fun e => (g e).length).sum := by
    intro α β l g
    induction l with
    | nil => simp
    | cons x t ih => simp [ih.1, ih.2]
  dsimp only
  constructor
  · rw [(flat (β := ℝ) _ _).1, pixels, Finset.sum_filter, ← Finset.univ_product_univ, Finset.sum_product]
    simp only [(row _ _).1]
    simp only [Fin.sum_univ_def]
  · rw [(flat (β := ℝ) _ _).2, pixels, Finset.card_filter, ← Finset.univ_product_univ, Finset.sum_product]
    simp only [(row _ _).2]
    simp only [Fin.sum_univ_def]

/-- **C92** The sensitivities.  With at least two Zernikes and a camera of at least 2×2 pixels, entry `[iz][ia]` is the intensity of the change of field caused by `ZrmsVal` of Zernike `iz`, averaged
over wavelengths, polarisation states and the pixels of annulus `ia` (NaN for an empty annulus), the same with and without parallel workers; the pupil fields and the Zernike settings of the model
are put back. -/
theorem C92_value (c : Cfg Pup Dms) (hz : 2 ≤ c.nolls.length) (he : 2 ≤ c.Neta) (hx : 2 ≤ c.Nxi) (par : Bool) (w : World Pup Dms) (hs : Settles c w.dm) :
    ∃ w2, calcZernSens c par w = (.ok (c.nolls.map fun j => c.annuli.map fun mask => if pixels mask = ∅ then none else some (Sens c w.E (c.settle w.dm) j c.zrms mask)), w2) ∧
      w2.E = w.E ∧ w2.zern.getD ([], []) = w.zern.getD ([], []) ∧ (∃ k, w2.dm = c.settle^[k] w.dm) ∧ (par = true → w2 = w) := by
  obtain ⟨w1, w2, h1, h2, h3⟩ := runs c w hs par
  refine ⟨w2, ?_, h3⟩
  unfold calcZernSens
  dsimp only
  rw [h1]
  dsimp only
  rw [h2]
  dsimp only
  rw [if_neg (by omega)]
  congr 2
  have hj : c.nolls = (List.range c.nolls.length).map fun iz => c.nolls.getD iz 0 := by
    apply List.ext_getElem
    · simp
    · intro i h1 h2; simp at h2; simp [h2]
  conv_rhs => rw [hj, List.map_map]
  refine List.map_congr_left fun iz hiz => ?_
  have hiz' : iz < c.nolls.length := List.mem_range.1 hiz
  refine List.map_congr_left fun mask _ => ?_
  simp only []
  obtain ⟨p1, p2⟩ := pixel_list mask fun e x => meanR ((List.range c.Nlam).map fun ilam => meanR ((List.range c.pols.length).map fun ipol => Complex.normSq
    (look (lamPolZern c) ((lamPolZern c).map fun i => fAb c w.E (c.settle w.dm) i.1 (c.pols.getD i.2.1 0) (c.nolls.getD i.2.2 0) c.zrms) (ilam, ipol, iz) e x -
      look (lamPol c) ((lamPol c).map fun i => fNom c w.E (c.settle w.dm) i.1 (c.pols.getD i.2 0)) (ilam, ipol) e x)))
  unfold mean
  have hempty : ∀ l : List ℝ, l.length = (pixels mask).card → (l = [] ↔ pixels mask = ∅) := by
    intro l hl
    rw [← List.length_eq_zero_iff, hl, Finset.card_eq_zero]
  simp only [hempty _ p2]
  split_ifs with h
  · rfl
  · rw [p1, p2]
    congr 1
    unfold Sens
    congr 1
    refine Finset.sum_congr rfl fun (q : Fin c.Neta × Fin c.Nxi) _ => ?_
    unfold meanR
    rw [sum_range_list]
    simp only [List.length_map, List.length_range]
    rw [mul_comm (c.Nlam : ℝ), ← div_div]
    congr 1
    rw [Finset.sum_div]
    refine Finset.sum_congr rfl fun ilam hil => ?_
    rw [sum_range_list]
    congr 1
    refine Finset.sum_congr rfl fun ipol hip => ?_
    rw [look_map _ _ _ ((mem_lamPolZern c _ _ _).2 ⟨Finset.mem_range.1 hil, Finset.mem_range.1 hip, hiz'⟩),
      look_map _ _ _ ((mem_lamPol c _ _).2 ⟨Finset.mem_range.1 hil, Finset.mem_range.1 hip⟩), Complex.normSq_eq_norm_sq]

/-- **C92** The condition holds for the DMs of FALCO whose constraints settle at the first evaluation, in particular with zero bias and pins within the limits. -/
theorem C92_settles {n : ℕ} (c : Cfg Pup (State n)) (hc : c.settle = enforce) (d : State n) (hb : ∀ i, d.biasMap i = 0) (h0 : d.Vmin ≤ 0 ∧ 0 ≤ d.Vmax)
    (hp : ∀ p ∈ d.pinned, d.Vmin ≤ p.2 ∧ p.2 ≤ d.Vmax) (hl : ∀ p ∈ d.tied, ¬ Follower d p.1) : Settles c d := by
  intro k ilam pol E
  congr 1
  have h1 : enforce (enforce d) = enforce d := C12_repeat_zero_bias d hb h0 hp hl 1
  rw [hc]
  induction k with
  | zero => rfl
  | succ k ih => rw [Function.iterate_succ_apply', ih, h1]

/-- **C92** violated for a single Zernike: the call always raises IndexError (after computing all the fields). -/
theorem C92_one_mode_violated (c : Cfg Pup Dms) (hz : c.nolls.length = 1) (par : Bool) (w : World Pup Dms) : (calcZernSens c par w).1 = .error .indexError := by
  unfold calcZernSens
  dsimp only
  rw [if_pos ⟨by omega, Or.inl hz⟩]

/-- **C92** For small amounts the sensitivity is quadratic in the amount: divided by its square it tends to the mean intensity of the derivative of the field (which for the models of FALCO exists,
C91). -/
theorem C92_small (c : Cfg Pup Dms) (E : ℕ → Pup → ℂ) (dm : Dms) (j : ℕ) (mask : Fin c.Neta → Fin c.Nxi → Bool) (dF : ℕ → ℤ → Fin c.Neta → Fin c.Nxi → ℂ)
    (hd : ∀ ilam pol e x, HasDerivAt (fun ε : ℝ => fAb c E dm ilam pol j ε e x) (dF ilam pol e x) 0) :
    Filter.Tendsto (fun ε : ℝ => Sens c E dm j ε mask / ε ^ 2) (nhdsWithin 0 {0}ᶜ)
      (nhds ((∑ q ∈ pixels mask, (∑ ilam ∈ Finset.range c.Nlam, ∑ ipol ∈ Finset.range c.pols.length, ‖dF ilam (c.pols.getD ipol 0) q.1 q.2‖ ^ 2) / (c.Nlam * c.pols.length)) /
        (pixels mask).card)) := by
  have h0 : ∀ ilam pol e x, fAb c E dm ilam pol j 0 e x = fNom c E dm ilam pol e x := by
    intro ilam pol e x
    unfold fAb fNom
    simp
  have h1 : ∀ ilam pol e x, Filter.Tendsto (fun ε : ℝ => ‖fAb c E dm ilam pol j ε e x - fNom c E dm ilam pol e x‖ ^ 2 / ε ^ 2) (nhdsWithin 0 {0}ᶜ) (nhds (‖dF ilam pol e x‖ ^ 2)) := by
    intro ilam pol e x
    have h := (hasDerivAt_iff_tendsto_slope.1 (hd ilam pol e x)).norm.pow 2
    refine h.congr fun ε => ?_
    rw [slope_def_module, h0, sub_zero, norm_smul, mul_pow, norm_inv, Real.norm_eq_abs, inv_pow, sq_abs]
    ring
  have e : (fun ε : ℝ => Sens c E dm j ε mask / ε ^ 2) = fun ε : ℝ => (∑ q ∈ pixels mask, (∑ ilam ∈ Finset.range c.Nlam, ∑ ipol ∈ Finset.range c.pols.length,
      ‖fAb c E dm ilam (c.pols.getD ipol 0) j ε q.1 q.2 - fNom c E dm ilam (c.pols.getD ipol 0) q.1 q.2‖ ^ 2 / ε ^ 2) / (c.Nlam * c.pols.length)) / (pixels mask).card := by
    funext ε
    unfold Sens
    simp only [← Finset.sum_div]
    ring
  rw [e]
  refine Filter.Tendsto.div_const (tendsto_finsetSum _ fun q _ => ?_) _
  refine Filter.Tendsto.div_const (tendsto_finsetSum _ fun ilam _ => ?_) _
  exact tendsto_finsetSum _ fun ipol _ => h1 _ _ _ _

/-- Two Zernikes, two wavelengths, a 2×2 camera, an annulus of one pixel and an empty one: the hypotheses of C92 are met; the second Zernike (a map that is 1 somewhere) changes the field. -/
example : ∃ c : Cfg Bool Unit, Settles c () ∧ 2 ≤ c.nolls.length ∧ 2 ≤ c.Neta ∧ 2 ≤ c.Nxi ∧ c.annuli.length = 2 ∧
    ∀ ilam pol e x, ∃ d, HasDerivAt (fun ε : ℝ => fAb c (fun _ _ => 1) () ilam pol 3 ε e x) d 0 ∧ d ≠ 0 := by
  let c : Cfg Bool Unit := ⟨2, [0], [2, 3], fun _ => 1, 1, fun j p => if p then j else 0, 2, 2, [fun e x => decide (e = 0) && decide (x = 0), fun _ _ => false],
    fun _ _ E _ _ _ => E true + E false, fun d => d⟩
  refine ⟨c, fun _ _ _ _ => rfl, by decide, by decide, by decide, rfl, ?_⟩
  intro ilam pol e x
  refine ⟨Complex.exp (Complex.I * (2 * Real.pi / 1 * (0 * 3) : ℝ)) * (Complex.I * ((2 * Real.pi / 1 * 3 : ℝ) : ℂ)), ?_, ?_⟩
  · unfold fAb
    simp only [c, if_true, Bool.false_eq_true, if_false, mul_one]
    have h1 : HasDerivAt (fun ε : ℝ => ((2 * Real.pi / 1 * (ε * 3) : ℝ) : ℂ)) ((2 * Real.pi / 1 * 3 : ℝ) : ℂ) 0 := by
      have : HasDerivAt (fun ε : ℝ => 2 * Real.pi / 1 * (ε * 3)) (2 * Real.pi / 1 * (1 * 3)) 0 := ((hasDerivAt_id (0 : ℝ)).mul_const 3).const_mul _
      rw [one_mul] at this
      exact this.ofReal_comp
    have h2 := ((h1.const_mul Complex.I).cexp).add_const (Complex.exp (Complex.I * ((2 * Real.pi / 1 * ((0 : ℝ) * 0) : ℝ) : ℂ)))
    refine HasDerivAt.congr_of_eventuallyEq h2 (Filter.Eventually.of_forall fun ε => ?_)
    simp
  · refine mul_ne_zero (Complex.exp_ne_zero _) (mul_ne_zero Complex.I_ne_zero ?_)
    exact_mod_cast (by positivity : (2 * Real.pi / 1 * 3 : ℝ) ≠ 0)

end Verif.ZernSens
