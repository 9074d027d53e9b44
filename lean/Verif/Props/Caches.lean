import Verif.Model.Caches
import Mathlib.Tactic.Linarith
import Mathlib.Tactic.NormNum

/-!
# C147: values kept once they are made

`falco.model.jacobian` makes the masks of an HLC once and the compact model uses them from then on; the fit of a surface makes its filter once.  What later calls return depends on when that was.
-/

namespace Verif.Caches
open Verif

variable {Pix V : Type}

/-! ## Specification -/

/-- The commands of DMs 8 and 9 after a history that starts with `v`: the last ones set. -/
def commands (v : V × V) : List (HlcOp V) → V × V
  | [] => v
  | .set8 w :: ops => commands (w, v.2) ops
  | .set9 w :: ops => commands (v.1, w) ops
  | _ :: ops => commands v ops

/-- No Jacobian in the history. -/
def NoJacobian (ops : List (HlcOp V)) : Prop := HlcOp.jacobian ∉ ops

theorem run_commands (h : HlcMp Pix V) (ops : List (HlcOp V)) (s : HlcState Pix V) : ((h.run s ops).V8, (h.run s ops).V9) = commands (s.V8, s.V9) ops := by
  induction ops generalizing s with
  | nil => rfl
  | cons op ops ih =>
    have hs := ih (h.next s op)
    change ((h.run (h.next s op) ops).V8, (h.run (h.next s op) ops).V9) = _
    rw [hs]
    cases op with
    | jacobian =>
      simp only [commands, HlcMp.next, HlcMp.ensureCube]
      split <;> rfl
    | _ => rfl

theorem run_noJacobian (h : HlcMp Pix V) (ops : List (HlcOp V)) (hn : NoJacobian ops) (s : HlcState Pix V) : (h.run s ops).cube = s.cube := by
  induction ops generalizing s with
  | nil => rfl
  | cons op ops ih =>
    have h1 : op ≠ .jacobian := fun h => hn (by rw [h]; exact List.mem_cons_self)
    have h2 : NoJacobian ops := fun h => hn (List.mem_cons_of_mem _ h)
    change (h.run (h.next s op) ops).cube = _
    rw [ih h2]
    cases op <;> first | rfl | exact absurd rfl h1

theorem run_cube (h : HlcMp Pix V) (ops : List (HlcOp V)) (s : HlcState Pix V) (c : ℕ → Pix → Except PyErr ℂ) (hc : s.cube = some c) : (h.run s ops).cube = some c := by
  induction ops generalizing s with
  | nil => exact hc
  | cons op ops ih =>
    apply ih
    cases op <;> simp [HlcMp.next, HlcMp.ensureCube, hc]

theorem pyIndex_lt {n k : ℕ} {i : ℤ} (h : Hlc.pyIndex n i = .ok k) : k < n := by
  unfold Hlc.pyIndex at h
  split_ifs at h <;> (injection h with h; omega)

theorem pyIndex_self {n k : ℕ} (h : k < n) : Hlc.pyIndex n (k : ℤ) = .ok k := by
  unfold Hlc.pyIndex
  rw [if_pos (by omega)]
  simp

theorem pyIndex_err {n : ℕ} {i : ℤ} {e : PyErr} (h : Hlc.pyIndex n i = .error e) : e = .indexError := by
  unfold Hlc.pyIndex at h
  split_ifs at h
  injection h with h
  exact h.symm

/-- C147: a slice of the cube is the mask made for that sub-band alone, with the same IndexError for a sub-band that does not exist. -/
theorem C147_cube_slice (h : HlcMp Pix V) (V8 V9 : V) (si : ℤ) (p : Pix) : h.sliceOf (h.makeCube V8 V9) si p = h.maskCompact V8 V9 si p := by
  unfold HlcMp.sliceOf HlcMp.makeCube HlcMp.maskCompact Hlc.lookup
  generalize Hlc.discretize h.diel _ = a
  generalize Hlc.discretize h.metal _ = b
  rcases hk : Hlc.pyIndex h.nCompact si with e | k
  · have he := pyIndex_err hk
    subst he
    rcases ha : Hlc.pyIndex h.diel.n a with e | ka
    · rw [pyIndex_err ha]; rfl
    · rcases hb : Hlc.pyIndex h.metal.n b with e | kb
      · rw [pyIndex_err hb]; rfl
      · rfl
  · have := pyIndex_self (pyIndex_lt hk)
    rcases ha : Hlc.pyIndex h.diel.n a with e | ka
    · rfl
    · rcases hb : Hlc.pyIndex h.metal.n b with e | kb
      · rfl
      · change (Hlc.pyIndex h.nCompact (k : ℤ) >>= fun k => pure (h.tableCompact ka kb k)) = _
        rw [this]
        rfl

/-- C147: until the first Jacobian, in every history, the compact model uses the mask of the present commands. -/
theorem C147_before (h : HlcMp Pix V) (v : V × V) (ops : List (HlcOp V)) (hn : NoJacobian ops) (si : ℤ) (p : Pix) :
    h.compactMask (h.run ⟨v.1, v.2, none⟩ ops) si p = h.maskCompact (commands v ops).1 (commands v ops).2 si p := by
  have hc := run_noJacobian h ops hn ⟨v.1, v.2, none⟩
  have hv := run_commands h ops ⟨v.1, v.2, none⟩
  unfold HlcMp.compactMask
  rw [hc]
  simp only [← show ((h.run ⟨v.1, v.2, none⟩ ops).V8, (h.run ⟨v.1, v.2, none⟩ ops).V9) = commands v ops from hv]

/-- C147, violated: from the first Jacobian on, whatever is set afterwards, the compact model and every later Jacobian use the mask of the commands at the time of the first Jacobian. -/
theorem C147_after_violated (h : HlcMp Pix V) (v : V × V) (ops later : List (HlcOp V)) (hn : NoJacobian ops) (si : ℤ) (p : Pix) :
    h.compactMask (h.run ⟨v.1, v.2, none⟩ (ops ++ .jacobian :: later)) si p = h.maskCompact (commands v ops).1 (commands v ops).2 si p
    ∧ h.jacobianMask (h.run ⟨v.1, v.2, none⟩ (ops ++ .jacobian :: later)) si p = h.maskCompact (commands v ops).1 (commands v ops).2 si p := by
  have hcube : (h.run ⟨v.1, v.2, none⟩ (ops ++ .jacobian :: later)).cube = some (h.makeCube (commands v ops).1 (commands v ops).2) := by
    have hv := run_commands h ops ⟨v.1, v.2, none⟩
    have hc := run_noJacobian h ops hn ⟨v.1, v.2, none⟩
    have hsplit : h.run ⟨v.1, v.2, none⟩ (ops ++ .jacobian :: later) = h.run (h.next (h.run ⟨v.1, v.2, none⟩ ops) .jacobian) later := by
      simp [HlcMp.run]
    rw [hsplit]
    apply run_cube
    simp only [HlcMp.next, HlcMp.ensureCube, hc]
    rw [← show ((h.run ⟨v.1, v.2, none⟩ ops).V8, (h.run ⟨v.1, v.2, none⟩ ops).V9) = commands v ops from hv]
    rfl
  constructor
  · unfold HlcMp.compactMask
    rw [hcube]
    exact C147_cube_slice h _ _ si p
  · unfold HlcMp.jacobianMask HlcMp.ensureCube
    rw [hcube]
    simp only [Option.isSome_some, if_true]
    rw [hcube]
    exact C147_cube_slice h _ _ si p

/-- C147: the full model uses the thicknesses of the present commands in every history (with slice `(si - 1) * Nwpsbp + wi` of its table: C52). -/
theorem C147_full (h : HlcMp Pix V) (s : HlcState Pix V) (ops : List (HlcOp V)) (si wi : ℤ) (p : Pix) :
    h.fullMask (h.run s ops) si wi p
      = Hlc.lookup h.diel h.metal h.nFull h.tableFull (h.surf8 (commands (s.V8, s.V9) ops).1 p) (h.bias / 10 ^ 9 + h.surf9 (commands (s.V8, s.V9) ops).2 p) ((si - 1) * h.nwpsbp + wi) := by
  rw [← run_commands h ops s, show h.bias / 10 ^ 9 = h.bias * 10 ^ (-9 : ℤ) by rw [zpow_neg, div_eq_mul_inv]; norm_cast]
  rfl

/-- C147: the mask of the compact model, pixel by pixel: the entry of the table for the two thicknesses, in the slice of the sub-band. -/
theorem C147_compact_mask (h : HlcMp Pix V) (V8 V9 : V) (si : ℤ) (p : Pix) :
    h.maskCompact V8 V9 si p = Hlc.lookup h.diel h.metal h.nCompact h.tableCompact (h.surf8 V8 p) (h.bias / 10 ^ 9 + h.surf9 V9 p) si := by
  rw [show h.bias / 10 ^ 9 = h.bias * 10 ^ (-9 : ℤ) by rw [zpow_neg, div_eq_mul_inv]; norm_cast]
  rfl

/-! ## Filter -/

variable {I A S : Type}

theorem fitNext_pre (build : ℕ → I → A) (size : A → ℕ) (solve : A → S → S) (op : FitOp I S) (dm : FitDm I A) (a : A) (h : dm.pre = some a) :
    (fitNext build size solve dm op).pre = some a := by
  cases op with
  | setNact n => exact h
  | setInf i => exact h
  | fit r c surf =>
    unfold fitNext fitWrapper
    simp only
    split
    · exact h
    · simp [ensurePre, h]

theorem fitRun_pre (build : ℕ → I → A) (size : A → ℕ) (solve : A → S → S) (ops : List (FitOp I S)) (dm : FitDm I A) (a : A) (h : dm.pre = some a) :
    (fitRun build size solve dm ops).pre = some a := by
  induction ops generalizing dm with
  | nil => exact h
  | cons op ops ih => exact ih _ (fitNext_pre build size solve op dm a h)

/-- C147: the first fit of a DM solves with the filter of its own actuators and influence function; a surface of another shape raises ValueError and leaves no filter. -/
theorem C147_first_fit (build : ℕ → I → A) (size : A → ℕ) (solve : A → S → S) (hs : ∀ n i, size (build n i) = n * n) (n : ℕ) (i : I) (r c : ℕ) (surf : S) :
    fitWrapper build size solve ⟨n, i, none⟩ r c surf
      = if r = n ∧ c = n then (.ok (solve (build n i) surf), ⟨n, i, some (build n i)⟩) else (.error .valueError, ⟨n, i, none⟩) := by
  unfold fitWrapper
  by_cases h : r = n ∧ c = n
  · obtain ⟨rfl, rfl⟩ := h
    simp [ensurePre, fitLsq, hs]
  · rw [if_pos (by tauto), if_neg h]

/-- C147, violated: after the first fit and any further history, a fit with another influence function and the same number of actuators returns what the first influence function gives … -/
theorem C147_influence_violated (build : ℕ → I → A) (size : A → ℕ) (solve : A → S → S) (hs : ∀ n i, size (build n i) = n * n) (n : ℕ) (i : I) (surf0 : S) (ops : List (FitOp I S)) (surf : S)
    (hN : (fitRun build size solve ⟨n, i, none⟩ (.fit n n surf0 :: ops)).Nact = n) :
    (fitWrapper build size solve (fitRun build size solve ⟨n, i, none⟩ (.fit n n surf0 :: ops)) n n surf).1 = .ok (solve (build n i) surf) := by
  have hpre : (fitRun build size solve ⟨n, i, none⟩ (.fit n n surf0 :: ops)).pre = some (build n i) := by
    change (fitRun build size solve (fitWrapper build size solve ⟨n, i, none⟩ n n surf0).2 ops).pre = _
    apply fitRun_pre
    rw [C147_first_fit build size solve hs]
    simp
  unfold fitWrapper
  rw [if_neg (by rw [hN]; tauto)]
  simp [ensurePre, hpre, fitLsq, hs]

/-- … and with another number of actuators no surface can be fitted: all raise. -/
theorem C147_actuators_violated (build : ℕ → I → A) (size : A → ℕ) (solve : A → S → S) (hs : ∀ n i, size (build n i) = n * n) (n : ℕ) (i : I) (surf0 : S) (ops : List (FitOp I S))
    (hN : (fitRun build size solve ⟨n, i, none⟩ (.fit n n surf0 :: ops)).Nact ≠ n) (r c : ℕ) (surf : S) :
    ∃ e, (fitWrapper build size solve (fitRun build size solve ⟨n, i, none⟩ (.fit n n surf0 :: ops)) r c surf).1 = .error e
      ∧ (r = (fitRun build size solve ⟨n, i, none⟩ (.fit n n surf0 :: ops)).Nact ∧ c = r → e = .typeError) := by
  have hpre : (fitRun build size solve ⟨n, i, none⟩ (.fit n n surf0 :: ops)).pre = some (build n i) := by
    change (fitRun build size solve (fitWrapper build size solve ⟨n, i, none⟩ n n surf0).2 ops).pre = _
    apply fitRun_pre
    rw [C147_first_fit build size solve hs]
    simp
  revert hN hpre
  generalize fitRun build size solve ⟨n, i, none⟩ (.fit n n surf0 :: ops) = dm
  intro hN hpre
  unfold fitWrapper
  by_cases h : r ≠ dm.Nact ∨ c ≠ dm.Nact
  · rw [if_pos h]
    exact ⟨_, rfl, fun hh => by obtain ⟨h1, h2⟩ := hh; subst h1 h2; simp at h⟩
  · rw [if_neg h]
    have hr : r = dm.Nact := by by_contra hh; exact h (Or.inl hh)
    have hc : c = dm.Nact := by by_contra hh; exact h (Or.inr hh)
    have hne : ¬ n * n = r * c := by
      rw [hr, hc]
      intro hh
      exact hN (Nat.mul_self_inj.1 hh).symm
    simp only [ensurePre, hpre, Option.isSome_some, if_true, fitLsq, hs, if_neg hne]
    exact ⟨_, rfl, fun _ => rfl⟩

/-! ## The hypotheses are met -/

/-- A history with a Jacobian in the middle, and commands set before and after. -/
example : NoJacobian [HlcOp.set8 (1 : ℕ), .compact 0, .set9 2] ∧ commands (0, 0) ([HlcOp.set8 (1 : ℕ), .compact 0, .set9 2] ++ .jacobian :: [.set8 7]) = (7, 2) := by
  constructor
  · simp [NoJacobian]
  · rfl

/-- A DM whose influence function, or number of actuators, changes after the first fit. -/
example : (fitRun (fun n (i : ℕ) => (n * n, i)) Prod.fst (fun a (s : ℕ) => a.2 + s) ⟨3, 10, none⟩ [.fit 3 3 0, .setInf 20]).Nact = 3
    ∧ (fitWrapper (fun n (i : ℕ) => (n * n, i)) Prod.fst (fun a (s : ℕ) => a.2 + s) (fitRun (fun n (i : ℕ) => (n * n, i)) Prod.fst (fun a (s : ℕ) => a.2 + s) ⟨3, 10, none⟩ [.fit 3 3 0, .setInf 20]) 3 3 5).1
        = .ok 15
    ∧ (fitRun (fun n (i : ℕ) => (n * n, i)) Prod.fst (fun a (s : ℕ) => a.2 + s) ⟨3, 10, none⟩ [.fit 3 3 0, .setNact 4]).Nact ≠ 3 := by
  refine ⟨rfl, rfl, ?_⟩
  decide

end Verif.Caches
