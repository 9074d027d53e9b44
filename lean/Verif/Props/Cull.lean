import Verif.Model.Cull
import Verif.Props.Jac
import Verif.Props.CtrlPack

/-!
# C97: controlled actuators and Jacobian columns through a run
-/

namespace Verif.Cull
open Verif Verif.Jac

variable {M : ℕ} {P : Type} [Fintype P]

/-! ## Specification -/

/-- Responses of the actuators when the second member of each tied pair moves with the first: the leader has the sum of both, the follower none. -/
noncomputable def merged (tied : List (ℕ × ℕ)) (f : ℕ → Col M P) : ℕ → Col M P :=
  tied.foldl (fun f t a => if a = t.2 then fun _ _ => 0 else if a = t.1 then fun m p => f t.1 m p + f t.2 m p else f a) f

/-- Total squared response of an actuator, over dark-hole pixels and modes. -/
noncomputable def strength (f : ℕ → Col M P) (i : ℕ) : ℝ := ∑ p, ∑ m, Complex.normSq (f i m p)

/-- The set to keep: the actuators with at least `10^logGmin` of the strongest response, and the members of tied pairs. -/
def Keep (N : ℕ) (logGmin : ℝ) (tied : List (ℕ × ℕ)) (f : ℕ → Col M P) (i : ℕ) : Prop :=
  i < N ∧ (((∃ k < N, 0 < strength f k) ∧ ∀ k < N, (10 : ℝ) ^ logGmin * strength f k ≤ strength f i) ∨ ∃ t ∈ tied, i = t.1 ∨ i = t.2)

/-! ## Ties -/

theorem applyTies_merged (act : List ℕ) (hn : act.Nodup) (tied : List (ℕ × ℕ)) (ht : ∀ t ∈ tied, t.1 ∈ act ∧ t.2 ∈ act ∧ t.1 ≠ t.2)
    (f : ℕ → Col M P) (G : List (Col M P)) (hG : G = act.map f) :
    applyTies act tied G = .ok (act.map (merged tied f)) := by
  induction tied generalizing f G with
  | nil => rw [hG]; rfl
  | cons t ts ih =>
    obtain ⟨h1, h2, h3⟩ := ht t (by simp)
    obtain ⟨a, ha, ea⟩ := List.getElem_of_mem h1
    obtain ⟨b, hb, eb⟩ := List.getElem_of_mem h2
    have hab : a ≠ b := by rintro rfl; exact h3 (ea.symm.trans eb)
    have hlen : G.length = act.length := by rw [hG, List.length_map]
    have e := tiePair_both act hn G hlen a b ha hb hab
    unfold applyTies
    rw [List.foldlM_cons]
    have et : t = (act[a], act[b]) := by rw [ea, eb]
    rw [et, e]
    have key : (G.set a (fun m p => G[a] m p + G[b] m p)).set b (fun _ _ => 0) =
        act.map fun x => if x = t.2 then fun _ _ => 0 else if x = t.1 then fun m p => f t.1 m p + f t.2 m p else f x := by
      apply List.ext_getElem
      · simp [hlen]
      · intro k hk hk'
        have hk2 : k < act.length := by simpa using hk'
        rw [List.getElem_map, List.getElem_set, List.getElem_set]
        have i1 : act[k] = t.1 ↔ a = k := by rw [← ea, hn.getElem_inj_iff, eq_comm]
        have i2 : act[k] = t.2 ↔ b = k := by rw [← eb, hn.getElem_inj_iff, eq_comm]
        have ga : ∀ h : a < G.length, G[a] = f t.1 := by intro h; simp only [hG, List.getElem_map, ea]
        have gb : ∀ h : b < G.length, G[b] = f t.2 := by intro h; simp only [hG, List.getElem_map, eb]
        have gk : ∀ h : k < G.length, G[k] = f act[k] := by intro h; simp only [hG, List.getElem_map]
        simp only [i1, i2, ga, gb, gk]
    have := ih (fun t' h' => ht t' (by simp [h'])) _ _ key
    unfold applyTies at this
    rw [← et]
    exact this

theorem relinearise_ok (d : DmJ M P) (it : Iter M P) (hu : it.used = true) (hn : d.actEle.Nodup) (hN : d.Nele = d.actEle.length)
    (ht : ∀ t ∈ d.tied, t.1 ∈ d.actEle ∧ t.2 ∈ d.actEle ∧ t.1 ≠ t.2) :
    relinearise d it = .ok { d with G := d.actEle.map (merged d.tied fun a m => it.col m a) } := by
  obtain ⟨G, h1, h2, h3⟩ := C30_serial d.actEle it.col
  have hG : G = d.actEle.map fun a m => it.col m a := by
    apply List.ext_getElem
    · simp [h2]
    · intro k hk hk'
      rw [List.getElem_map]
      funext m
      exact h3 k (by omega) hk m
  unfold relinearise
  rw [hu, hN, h1]
  simp only [bind, Except.bind, if_true, pure, Except.pure]
  rw [applyTies_merged d.actEle hn d.tied ht _ G hG]

theorem weed_ok (d : DmJ M P) (logGmin : ℝ) (f : ℕ → Col M P) (hG : d.G = (List.range d.Ntot).map f) (ht : ∀ t ∈ d.tied, t.1 < d.Ntot ∧ t.2 < d.Ntot) :
    ∃ act, weed d logGmin = .ok { d with actEle := act, Nele := act.length, G := act.map f } ∧ act.Pairwise (· < ·) ∧
      ∀ i, i ∈ act ↔ Keep d.Ntot logGmin d.tied f i := by
  have hlen : d.G.length = d.Ntot := by rw [hG]; simp
  obtain ⟨act, h1, h2, h3⟩ := Ctrl.C26_kept_set (asArray d.G) logGmin d.tied (by rw [hlen]; exact ht)
  have hrange : ∀ i ∈ act, i < d.Ntot := by
    intro i hi
    unfold Ctrl.cull at h1
    dsimp only at h1
    split at h1
    · cases h1
    · next hany =>
      cases h1
      by_contra hcon
      exact hany (List.any_eq_true.2 ⟨i, hi, by rw [hlen]; simpa using hcon⟩)
  have hresp : ∀ j : Fin d.G.length, Ctrl.response (asArray d.G) j = strength f j.val / (Fintype.card (Fin M) : ℝ) := by
    intro j
    unfold Ctrl.response strength asArray
    rw [Finset.sum_div]
    refine Finset.sum_congr rfl fun p _ => ?_
    congr 1
    refine Finset.sum_congr rfl fun m _ => ?_
    have : d.G[j] = f j.val := by
      have : d.G[j.val]'j.isLt = f j.val := by
        have h := j.isLt
        simp only [hG, List.getElem_map, List.getElem_range]
      exact this
    rw [this]
  refine ⟨act, ?_, h2, ?_⟩
  · unfold weed
    rw [h1]
    simp only [bind, Except.bind, pure, Except.pure]
    congr 2
    refine List.map_congr_left fun i hi => ?_
    have hi' := hrange i hi
    rw [List.getD_eq_getElem?_getD, List.getElem?_eq_getElem (by omega), Option.getD_some]
    simp only [hG, List.getElem_map, List.getElem_range]
  · intro i
    unfold Keep
    by_cases hi : i < d.Ntot
    · have := h3 ⟨i, by omega⟩
      rw [this]
      simp only [hi, true_and]
      refine or_congr ?_ Iff.rfl
      rcases Nat.eq_zero_or_pos M with h0 | hpos
      · subst h0
        have z : ∀ k, strength f k = 0 := by intro k; simp [strength]
        simp [hresp, z]
      · have hc : (0 : ℝ) < (Fintype.card (Fin M) : ℝ) := by simpa using hpos
        simp only [hresp]
        constructor
        · rintro ⟨⟨k, hk⟩, h⟩
          refine ⟨⟨k.val, by omega, ?_⟩, fun k hk => ?_⟩
          · by_contra hcon
            exact absurd hk (not_lt.2 (div_nonpos_of_nonpos_of_nonneg (not_lt.1 hcon) hc.le))
          · have := h ⟨k, by omega⟩
            rw [mul_div_assoc', div_le_div_iff_of_pos_right hc] at this
            exact this
        · rintro ⟨⟨k, hk, hk2⟩, h⟩
          refine ⟨⟨⟨k, by omega⟩, div_pos hk2 hc⟩, fun k => ?_⟩
          rw [mul_div_assoc', div_le_div_iff_of_pos_right hc]
          exact h k.val (by have := k.isLt; omega)
    · constructor
      · intro h; exact absurd (hrange i h) hi
      · rintro ⟨h, -⟩; exact absurd h hi

/-- An iteration that keeps the set of DMs. -/
def Same (hasSched : Bool) (p q : List ℕ) : Prop := hasSched = false ∨ p.Perm q

theorem cullFlag_same (hasSched : Bool) (p q : List ℕ) (h : Same hasSched p q) : cullFlag hasSched (some p) q = false := by
  unfold cullFlag
  rcases h with h | h
  · simp [h]
  · have : p.mergeSort (· ≤ ·) = q.mergeSort (· ≤ ·) := by
      refine List.Perm.eq_of_pairwise' (r := (· ≤ ·)) ?_ ?_ (((List.mergeSort_perm _ _).trans h).trans (List.mergeSort_perm _ _).symm)
      · exact List.pairwise_mergeSort' _ _
      · exact List.pairwise_mergeSort' _ _
    simp [this]

theorem cullFlag_changed (p q : List ℕ) (h : ¬ p.Perm q) : cullFlag true (some p) q = true := by
  unfold cullFlag
  simp only [Bool.true_and, bne_iff_ne, ne_eq]
  intro e
  exact h (((List.mergeSort_perm p (· ≤ ·)).symm.trans (e ▸ List.Perm.refl _)).trans (List.mergeSort_perm q (· ≤ ·)))

/-- Later iterations of a run with a fixed set of DMs. -/
theorem run_later (logGmin : ℝ) (hasSched : Bool) (its : List (Iter M P)) (p : List ℕ) (hu : ∀ it ∈ its, it.used = true)
    (hs : ∀ it ∈ its, Same hasSched p it.sched) (d : DmJ M P) (hn : d.actEle.Nodup) (hN : d.Nele = d.actEle.length)
    (ht : ∀ t ∈ d.tied, t.1 ∈ d.actEle ∧ t.2 ∈ d.actEle ∧ t.1 ≠ t.2) :
    ∃ ds, run logGmin hasSched (some p) its d = .ok ds ∧ ds.length = its.length ∧
      ∀ (t : ℕ) (h : t < ds.length) (_ : t < its.length),
        ((∀ s (hs : s < its.length), s ≤ t → its[s].relin = false) ∧ ds[t] = d) ∨
        ∃ (r : ℕ) (hr : r < its.length), r ≤ t ∧ its[r].relin = true ∧ (∀ s (hs : s < its.length), r < s → s ≤ t → its[s].relin = false) ∧
          ds[t] = { d with G := d.actEle.map (merged d.tied fun a m => its[r].col m a) } := by
  induction its generalizing d p with
  | nil => exact ⟨[], rfl, rfl, fun t h => absurd h (by simp)⟩
  | cons it its ih =>
    have hu0 := hu it (by simp)
    have hf := cullFlag_same hasSched p it.sched (hs it (by simp))
    set d1 : DmJ M P := if it.relin then { d with G := d.actEle.map (merged d.tied fun a m => it.col m a) } else d with hd1
    have hstep : step logGmin hasSched (some p) it d = .ok d1 := by
      unfold step
      simp only [Option.isNone_some, Bool.or_false, hf, Bool.false_and, Bool.false_eq_true, if_false, hd1]
      by_cases hr : it.relin = true
      · simp only [hr, if_true, relinearise_ok d it hu0 hn hN ht, bind, Except.bind]
      · simp only [hr, Bool.false_eq_true, if_false, bind, Except.bind]
    have hprop : d1.actEle = d.actEle ∧ d1.tied = d.tied ∧ d1.Nele = d.Nele := by rw [hd1]; split <;> exact ⟨rfl, rfl, rfl⟩
    have hs' : ∀ it' ∈ its, Same hasSched it.sched it'.sched := by
      intro it' h
      rcases hs it (by simp) with e | e
      · exact Or.inl e
      · rcases hs it' (by simp [h]) with e' | e'
        · exact Or.inl e'
        · exact Or.inr (e.symm.trans e')
    obtain ⟨ds, e1, e2, e3⟩ := ih it.sched (fun i h => hu i (by simp [h])) hs' d1 (hprop.1 ▸ hn) (by rw [hprop.2.2, hprop.1, hN])
      (by rw [hprop.2.1, hprop.1]; exact ht)
    refine ⟨d1 :: ds, ?_, by simp [e2], ?_⟩
    · unfold run
      rw [hstep]
      simp only [bind, Except.bind, e1, pure, Except.pure]
    · intro t h h'
      cases t with
      | zero =>
        simp only [List.getElem_cons_zero]
        by_cases hr : it.relin = true
        · right
          refine ⟨0, by simp, le_refl _, by simpa using hr, fun s _ h1 h2 => by omega, ?_⟩
          simp only [hd1, hr, if_true, List.getElem_cons_zero]
        · left
          refine ⟨fun s hs h1 => ?_, by simp only [hd1, hr]; rfl⟩
          obtain rfl : s = 0 := by omega
          simpa using hr
      | succ t =>
        simp only [List.getElem_cons_succ]
        rcases e3 t (by simpa using h) (by simpa using h') with ⟨a, b⟩ | ⟨r, hr, a, b, c, e⟩
        · by_cases hr : it.relin = true
          · right
            refine ⟨0, by simp, by omega, by simpa using hr, ?_, ?_⟩
            · intro s hs h1 h2
              cases s with
              | zero => omega
              | succ s => simpa using a s (by simpa using hs) (by omega)
            · rw [b]; simp only [hd1, hr, if_true, List.getElem_cons_zero]
          · left
            refine ⟨?_, by rw [b]; simp only [hd1, hr]; rfl⟩
            intro s hs h2
            cases s with
            | zero => simpa using hr
            | succ s => simpa using a s (by simpa using hs) (by omega)
        · right
          refine ⟨r + 1, by simpa using hr, by omega, by simpa using b, ?_, ?_⟩
          · intro s hs h1 h2
            cases s with
            | zero => omega
            | succ s => simpa using c s (by simpa using hs) (by omega) (by omega)
          · rw [e, hprop.1, hprop.2.1]
            simp only [List.getElem_cons_succ]
            rw [hd1]; split <;> rfl

/-- The first iteration of a run, for a DM in use. -/
theorem step_first (logGmin : ℝ) (hasSched : Bool) (it : Iter M P) (hu : it.used = true) (N : ℕ) (tied : List (ℕ × ℕ))
    (ht : ∀ t ∈ tied, t.1 < N ∧ t.2 < N ∧ t.1 ≠ t.2) :
    ∃ act : List ℕ, act.Pairwise (· < ·) ∧ (∀ i, i ∈ act ↔ Keep N logGmin tied (merged tied fun a m => it.col m a) i) ∧
      step logGmin hasSched none it (start N tied true) =
        .ok { Ntot := N, tied := tied, actEle := act, Nele := act.length, G := act.map (merged tied fun a m => it.col m a) } := by
  set f := merged tied fun a m => it.col m a with hf
  have h1 := relinearise_ok (start N tied true) it hu List.nodup_range (by simp [start]) (by
    intro t h; obtain ⟨a, b, c⟩ := ht t h; exact ⟨List.mem_range.2 a, List.mem_range.2 b, c⟩)
  obtain ⟨act, a1, a2, a3⟩ := weed_ok (M := M) (P := P) { Ntot := N, tied := tied, actEle := List.range N, Nele := N, G := (List.range N).map f } logGmin f rfl
    (fun t h => ⟨(ht t h).1, (ht t h).2.1⟩)
  refine ⟨act, a2, a3, ?_⟩
  unfold step
  simp only [Option.isNone_none, Bool.or_true, if_true, h1, bind, Except.bind, cullFlag, hu, Bool.and_self]
  exact a1

/-- **C97** In every run in which the DM is used throughout and the set of DMs does not change (any relinearisation schedule, any responses, any threshold): no iteration fails here; the
controlled actuators are the same in all iterations: those responding in the first iteration with at least the given fraction of the strongest response, and the members of tied pairs; the Jacobian
has one column for each controlled actuator, the `k`-th being the response of the `k`-th controlled actuator (tied ones merged) at the latest relinearisation; and the shapes fit in the controller. -/
theorem C97_fixed_set (logGmin : ℝ) (hasSched : Bool) (it0 : Iter M P) (its : List (Iter M P)) (hu : ∀ it ∈ it0 :: its, it.used = true)
    (hs : ∀ it ∈ its, Same hasSched it0.sched it.sched) (N : ℕ) (tied : List (ℕ × ℕ)) (ht : ∀ t ∈ tied, t.1 < N ∧ t.2 < N ∧ t.1 ≠ t.2) :
    ∃ (act : List ℕ) (ds : List (DmJ M P)), run logGmin hasSched none (it0 :: its) (start N tied true) = .ok ds ∧ ds.length = (it0 :: its).length ∧
      act.Pairwise (· < ·) ∧ (∀ i, i ∈ act ↔ Keep N logGmin tied (merged tied fun a m => it0.col m a) i) ∧
      ∀ (t : ℕ) (h : t < ds.length), ds[t].actEle = act ∧ ds[t].Nele = act.length ∧ controlShapes ds[t] true = .ok () ∧
        ∃ (r : ℕ) (hr : r < (it0 :: its).length), r ≤ t ∧ (r = 0 ∨ (it0 :: its)[r].relin = true) ∧
          (∀ s (hs : s < (it0 :: its).length), r < s → s ≤ t → (it0 :: its)[s].relin = false) ∧
          ds[t].G = act.map (merged tied fun a m => (it0 :: its)[r].col m a) := by
  obtain ⟨act, a1, a2, a3⟩ := step_first logGmin hasSched it0 (hu it0 (by simp)) N tied ht
  have hmem : ∀ t ∈ tied, t.1 ∈ act ∧ t.2 ∈ act ∧ t.1 ≠ t.2 := by
    intro t h
    obtain ⟨b1, b2, b3⟩ := ht t h
    exact ⟨(a2 _).2 ⟨b1, Or.inr ⟨t, h, Or.inl rfl⟩⟩, (a2 _).2 ⟨b2, Or.inr ⟨t, h, Or.inr rfl⟩⟩, b3⟩
  obtain ⟨ds, e1, e2, e3⟩ := run_later logGmin hasSched its it0.sched (fun i h => hu i (by simp [h])) hs
    { Ntot := N, tied := tied, actEle := act, Nele := act.length, G := act.map (merged tied fun a m => it0.col m a) } (a1.imp (fun h => ne_of_lt h)) rfl hmem
  refine ⟨act, { Ntot := N, tied := tied, actEle := act, Nele := act.length, G := act.map (merged tied fun a m => it0.col m a) } :: ds, ?_, by simp [e2], a1, a2, ?_⟩
  · unfold run
    rw [a3]
    simp only [bind, Except.bind, e1, pure, Except.pure]
  · intro t h
    have shapes : ∀ f : ℕ → Col M P, controlShapes ({ Ntot := N, tied := tied, actEle := act, Nele := act.length, G := act.map f } : DmJ M P) true = .ok () := by
      intro f; simp [controlShapes]
    cases t with
    | zero =>
      exact ⟨rfl, rfl, shapes _, 0, by simp, le_refl _, Or.inl rfl, fun s _ h1 h2 => by omega, rfl⟩
    | succ t =>
      simp only [List.getElem_cons_succ]
      rcases e3 t (by simpa using h) (by simpa [e2] using h) with ⟨a, b⟩ | ⟨r, hr, a, b, c, e⟩
      · rw [b]
        refine ⟨rfl, rfl, shapes _, 0, by simp, by omega, Or.inl rfl, ?_, rfl⟩
        intro s hs h1 h2
        cases s with
        | zero => omega
        | succ s => simpa using a s (by simpa using hs) (by omega)
      · rw [e]
        refine ⟨rfl, rfl, shapes _, r + 1, by simpa using hr, by omega, Or.inr (by simpa using b), ?_, ?_⟩
        · intro s hs h1 h2
          cases s with
          | zero => omega
          | succ s => simpa using c s (by simpa using hs) (by omega) (by omega)
        · simp only [List.getElem_cons_succ]

/-- A state reached after a run with a fixed set of DMs (`C97_fixed_set`): controlled set `act`, Jacobian of its members. -/
def reached (N : ℕ) (act : List ℕ) (f : ℕ → Col M P) : DmJ M P := { Ntot := N, tied := [], actEle := act, Nele := act.length, G := act.map f }

/-- **C97** violated when the set of DMs changes without relinearisation after some actuator was culled: all actuators are controlled again, but the Jacobian still has the columns of the kept ones,
and the controller fails with a ValueError. -/
theorem C97_change_without_relin_violated (logGmin : ℝ) (p : List ℕ) (it : Iter M P) (hu : it.used = true) (hr : it.relin = false) (hc : ¬ p.Perm it.sched)
    (N : ℕ) (act : List ℕ) (hact : act.length < N) (f : ℕ → Col M P) :
    ∃ d, step logGmin true (some p) it (reached N act f) = .ok d ∧ d.actEle = List.range N ∧ d.G = act.map f ∧ controlShapes d true = .error .valueError := by
  refine ⟨{ Ntot := N, tied := [], actEle := List.range N, Nele := N, G := act.map f }, ?_, ?_⟩
  · unfold step
    simp only [hr, Option.isNone_some, Bool.or_self, Bool.false_eq_true, if_false, bind, Except.bind, cullFlag_changed p it.sched hc, if_true, Bool.and_false, Bool.false_and, reinclude, hu, reached]
  · refine ⟨rfl, rfl, ?_⟩
    unfold controlShapes
    simp only [List.length_map, Bool.true_and, bne_iff_ne, ne_eq]
    rw [if_pos (by omega)]

/-- **C97** violated when the set of DMs changes in an iteration that relinearises, after some actuator was culled: the Jacobian is computed for the old controlled set `act` and its column numbers are
taken for actuator numbers: column `j` of the new Jacobian is the response of actuator `act[k]`, but the controller will move actuator `k`. -/
theorem C97_change_with_relin_violated (logGmin : ℝ) (p : List ℕ) (it : Iter M P) (hu : it.used = true) (hr : it.relin = true) (hc : ¬ p.Perm it.sched)
    (N : ℕ) (act : List ℕ) (hn : act.Nodup) (f : ℕ → Col M P) :
    ∃ d, step logGmin true (some p) it (reached N act f) = .ok d ∧ d.Nele = d.G.length ∧ d.actEle.length = d.G.length ∧
      ∀ j (h : j < d.actEle.length) (h' : j < d.G.length), ∃ hk : d.actEle[j] < act.length, d.G[j] = fun m => it.col m (act[d.actEle[j]]'hk) := by
  have h1 := relinearise_ok (reached N act f) it hu hn rfl (by intro t h; cases h)
  have e0 : merged (reached N act f).tied (fun a m => it.col m a) = fun a m => it.col m a := rfl
  rw [e0] at h1
  set G := act.map fun a m => it.col m a with hG
  have hlen : G.length = act.length := by simp [hG]
  obtain ⟨new, a1, a2, a3⟩ := Ctrl.C26_kept_set (asArray G) logGmin [] (by intro t h; cases h)
  have hrange : ∀ i ∈ new, i < act.length := by
    intro i hi
    unfold Ctrl.cull at a1
    dsimp only at a1
    split at a1
    · cases a1
    · next hany =>
      cases a1
      by_contra hcon
      exact hany (List.any_eq_true.2 ⟨i, hi, by rw [hlen]; simpa using hcon⟩)
  refine ⟨{ Ntot := N, tied := [], actEle := new, Nele := new.length, G := new.map fun i => G.getD i fun _ _ => 0 }, ?_, by simp, by simp, ?_⟩
  · have hw : weed ({ Ntot := N, tied := [], actEle := List.range N, Nele := N, G := G } : DmJ M P) logGmin =
        .ok { Ntot := N, tied := [], actEle := new, Nele := new.length, G := new.map fun i => G.getD i fun _ _ => 0 } := by
      unfold weed
      rw [a1]
      rfl
    unfold step
    simp only [hr, Option.isNone_some, Bool.or_false, if_true, h1, bind, Except.bind, cullFlag_changed p it.sched hc, Bool.and_self, hu]
    exact hw
  · intro j h h'
    have hk := hrange new[j] (List.getElem_mem h)
    refine ⟨hk, ?_⟩
    simp only [List.getElem_map]
    rw [List.getD_eq_getElem?_getD, List.getElem?_eq_getElem (by rw [hlen]; exact hk), Option.getD_some]
    simp only [hG, List.getElem_map]

/-- **C97** violated for a DM that is not used at first and then scheduled: the iteration relinearising with it fails with an IndexError, whatever happened before; one that does not relinearise
leaves the DM without Jacobian and the controller fails with a ValueError. -/
theorem C97_added_violated (logGmin : ℝ) (p : List ℕ) (it : Iter M P) (hu : it.used = true) (hM : 0 < M) (d : DmJ M P) (hN : d.Nele = 0) (hact : d.actEle ≠ []) :
    (it.relin = true → step logGmin true (some p) it d = .error .indexError) ∧
    (it.relin = false → ¬ p.Perm it.sched → d.G = [] → 0 < d.Ntot → ∃ d', step logGmin true (some p) it d = .ok d' ∧ controlShapes d' true = .error .valueError) := by
  constructor
  · intro hr
    have : serial it.used d.Nele d.actEle it.col = .error .indexError := by
      unfold serial
      rw [hu, hN]
      obtain ⟨M', rfl⟩ : ∃ M', M = M' + 1 := ⟨M - 1, by omega⟩
      cases h : d.actEle with
      | nil => exact absurd h hact
      | cons a l =>
        simp only [if_true, List.finRange_succ, List.foldlM_cons, List.zipIdx_cons]
        rw [setCol_err _ _ _ _ (by simp [zeros])]
        rfl
    unfold step
    simp only [hr, Bool.true_or, if_true, relinearise, this, bind, Except.bind]
  · intro hr hc hG hT
    refine ⟨{ d with actEle := List.range d.Ntot, Nele := d.Ntot }, ?_, ?_⟩
    · unfold step
      simp only [hr, Option.isNone_some, Bool.or_self, Bool.false_eq_true, if_false, bind, Except.bind, cullFlag_changed p it.sched hc, if_true, Bool.and_false, Bool.false_and, reinclude, hu]
    · unfold controlShapes
      simp only [hG, List.length_nil, Bool.true_and, bne_iff_ne, ne_eq]
      rw [if_pos (by omega)]

/-- The hypotheses of `C97_added_violated` are met by every DM that is not used in the first iterations of a run. -/
theorem C97_unused_state (logGmin : ℝ) (hasSched : Bool) (its : List (Iter M P)) (hu : ∀ it ∈ its, it.used = false) (N : ℕ) (tied : List (ℕ × ℕ)) :
    ∃ ds, run logGmin hasSched none its (start N tied false) = .ok ds ∧ ∀ d ∈ ds, d.Nele = 0 ∧ d.actEle = List.range N ∧ d.Ntot = N ∧ d.G = [] := by
  have gen : ∀ (its : List (Iter M P)) (_ : ∀ it ∈ its, it.used = false) (prev : Option (List ℕ)) (d : DmJ M P),
      d.Nele = 0 ∧ d.actEle = List.range N ∧ d.Ntot = N ∧ d.G = [] →
      ∃ ds, run logGmin hasSched prev its d = .ok ds ∧ ∀ d ∈ ds, d.Nele = 0 ∧ d.actEle = List.range N ∧ d.Ntot = N ∧ d.G = [] := by
    intro its
    induction its with
    | nil => intro _ prev d _; exact ⟨[], rfl, by simp⟩
    | cons it its ih =>
      intro hu prev d hd
      have h0 := hu it (by simp)
      have : ∃ d1, step logGmin hasSched prev it d = .ok d1 ∧ d1.Nele = 0 ∧ d1.actEle = List.range N ∧ d1.Ntot = N ∧ d1.G = [] := by
        unfold step
        have hrel : relinearise d it = .ok d := by
          unfold relinearise serial
          rw [h0]
          simp only [Bool.false_eq_true, if_false, bind, Except.bind, pure, Except.pure]
          rw [hd.1]
          congr 1
          obtain ⟨a, b, c, e, g⟩ := d
          obtain ⟨rfl, -, -, rfl⟩ := hd
          rfl
        have hre : (if cullFlag hasSched prev it.sched = true then reinclude d it.used else d).Nele = 0 ∧
            (if cullFlag hasSched prev it.sched = true then reinclude d it.used else d).actEle = List.range N ∧
            (if cullFlag hasSched prev it.sched = true then reinclude d it.used else d).Ntot = N ∧
            (if cullFlag hasSched prev it.sched = true then reinclude d it.used else d).G = [] := by
          split
          · unfold reinclude; rw [h0]; exact ⟨rfl, hd.2⟩
          · exact hd
        refine ⟨_, ?_, hre⟩
        rw [hrel]
        simp only [ite_self, bind, Except.bind, h0, Bool.and_false, Bool.false_eq_true, if_false]
      obtain ⟨d1, e1, e2⟩ := this
      obtain ⟨ds, f1, f2⟩ := ih (fun i h => hu i (by simp [h])) (some it.sched) d1 e2
      refine ⟨d1 :: ds, ?_, ?_⟩
      · unfold run
        rw [e1]
        simp only [bind, Except.bind, f1, pure, Except.pure]
      · intro d' h'
        rcases List.mem_cons.1 h' with rfl | h'
        · exact e2
        · exact f2 d' h'
  exact gen its hu none (start N tied false) ⟨rfl, rfl, rfl, rfl⟩

/-- Three actuators of which the first does not respond: a two-iteration run keeps actuators 1 and 2. -/
example : ∃ ds : List (DmJ 1 (Fin 1)), run (-1) true none
    [⟨true, [1, 2], true, fun _ a _ => if a = 0 then 0 else 1⟩, ⟨true, [2, 1], false, fun _ _ _ => 0⟩] (start 3 [] true) = .ok ds ∧
    ∀ (t : ℕ) (h : t < ds.length), ds[t].actEle = [1, 2] := by
  obtain ⟨act, ds, h1, h2, h3, h4, h5⟩ := C97_fixed_set (M := 1) (P := Fin 1) (-1) true ⟨true, [1, 2], true, fun _ a _ => if a = 0 then 0 else 1⟩
    [⟨true, [2, 1], false, fun _ _ _ => 0⟩] (by simp) (by intro it h; simp at h; subst h; exact Or.inr (by decide)) 3 [] (by simp)
  refine ⟨ds, h1, fun t h => ?_⟩
  rw [(h5 t h).1]
  have hs : ∀ k, strength (M := 1) (P := Fin 1) (merged [] fun a m => (fun _ a _ => if a = 0 then 0 else 1 : Fin 1 → ℕ → Fin 1 → ℂ) m a) k = if k = 0 then 0 else 1 := by
    intro k
    simp only [strength, merged, List.foldl_nil, Finset.univ_unique, Finset.sum_const, Finset.card_singleton, one_smul]
    split <;> simp
  have hk : ∀ i, i ∈ act ↔ i = 1 ∨ i = 2 := by
    intro i
    rw [h4 i]
    unfold Keep
    simp only [hs]
    constructor
    · rintro ⟨a, ⟨-, b⟩ | ⟨t, ht, -⟩⟩
      · have := b 1 (by norm_num)
        by_cases h0 : i = 0
        · rw [if_pos h0, if_neg (by norm_num), mul_one] at this
          have : (0 : ℝ) < (10 : ℝ) ^ (-1 : ℝ) := by positivity
          linarith
        · omega
      · cases ht
    · intro hi
      refine ⟨by omega, Or.inl ⟨⟨1, by norm_num, by norm_num⟩, fun k hk => ?_⟩⟩
      rw [if_neg (by omega : ¬ i = 0)]
      have h10 : (10 : ℝ) ^ (-1 : ℝ) ≤ 1 := by rw [Real.rpow_neg_one]; norm_num
      split
      · norm_num
      · linarith
  refine List.Perm.eq_of_pairwise' (r := (· < ·)) h3 (by decide) ((List.perm_ext_iff_of_nodup (h3.imp fun h => ne_of_lt h) (by decide)).2 fun i => ?_)
  rw [hk i]; simp

end Verif.Cull
