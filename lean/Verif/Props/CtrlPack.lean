import Verif.Model.Ctrl
import Verif.Props.DmConstraints
import Mathlib.Data.List.Sort
import Mathlib.Data.List.Nodup
import Mathlib.Tactic.Ring
import Mathlib.Tactic.Linarith

/-!
# C25 (packing), C26 (culling), C27 (Jacobian sharing), C29 (AD-EFC bounds)
-/

namespace Verif.Ctrl
open Verif Complex

/-! ## C25 -/

/-- What the setup code guarantees about the DM records: different DM numbers, `Nele` = number of controlled actuators, controlled
actuators distinct and in range. -/
structure WellFormed (dms : List DmCtl) : Prop where
  nums : (dms.map DmCtl.num).Nodup
  nele : ∀ d ∈ dms, d.Nele = d.actEle.length
  nodup : ∀ d ∈ dms, d.actEle.Nodup
  range : ∀ d ∈ dms, ∀ i ∈ d.actEle, i < d.V.length

/-- `parts` splits the command vector DM by DM. -/
def Splits (dms : List DmCtl) (parts : List (List ℝ)) : Prop := List.Forall₂ (fun d part => part.length = d.Nele) dms parts

theorem flatten_length {dms : List DmCtl} {parts : List (List ℝ)} (h : Splits dms parts) :
    parts.flatten.length = (legend dms).length := by
  induction h with
  | nil => rfl
  | cons h _ ih => simp only [List.flatten_cons, List.length_append, ih, legend, List.flatMap_cons, List.length_replicate, h]

theorem zip_replicate_filter (part : List ℝ) (a k : ℕ) :
    (((part.zip (List.replicate part.length a)).filter fun p => p.2 == k).map Prod.fst) = if a = k then part else [] := by
  induction part with
  | nil => simp
  | cons x t ih =>
    simp only [List.length_cons, List.replicate_succ, List.zip_cons_cons]
    by_cases h : a = k
    · subst h
      simp only [if_true] at ih ⊢
      rw [List.filter_cons_of_pos (by simp), List.map_cons, ih]
    · simp only [h, if_false] at ih ⊢
      rw [List.filter_cons_of_neg (by simpa using h), ih]

theorem select_flatten {dms : List DmCtl} {parts : List (List ℝ)} (h : Splits dms parts) (hn : (dms.map DmCtl.num).Nodup)
    (k : ℕ) (d : DmCtl) (part : List ℝ) (hd : dms[k]? = some d) (hp : parts[k]? = some part) :
    ((parts.flatten.zip (legend dms)).filter fun p => p.2 == d.num).map Prod.fst = part := by
  have none_of : ∀ {dms : List DmCtl} {parts : List (List ℝ)}, Splits dms parts → ∀ num, num ∉ dms.map DmCtl.num →
      ((parts.flatten.zip (legend dms)).filter fun p => p.2 == num).map Prod.fst = [] := by
    intro dms parts h
    induction h with
    | nil => intro num _; rfl
    | @cons d p ds ps h hs ih =>
      intro num hnum
      simp only [List.map_cons, List.mem_cons, not_or] at hnum
      simp only [List.flatten_cons, legend, List.flatMap_cons]
      rw [List.zip_append (by simp [h]), List.filter_append, List.map_append, ← h, zip_replicate_filter, if_neg (Ne.symm hnum.1)]
      exact ih num hnum.2
  induction h generalizing k with
  | nil => simp at hd
  | @cons d0 p0 ds ps h hs ih =>
    simp only [List.map_cons, List.nodup_cons] at hn
    simp only [List.flatten_cons, legend, List.flatMap_cons]
    rw [List.zip_append (by simp [h]), List.filter_append, List.map_append, ← h, zip_replicate_filter]
    cases k with
    | zero =>
      simp at hd hp; subst hd; subst hp
      rw [if_pos rfl]
      have := none_of hs d0.num hn.1
      unfold legend at this
      rw [this, List.append_nil]
    | succ k =>
      simp at hd hp
      have hne : d0.num ≠ d.num := by
        intro e
        exact hn.1 (by rw [e]; exact List.mem_map.2 ⟨d, List.mem_of_getElem? hd, rfl⟩)
      rw [if_neg hne, List.nil_append]
      exact ih hn.2 k hd hp

theorem foldl_set_spec (idx : List ℕ) (vals : List ℝ) (hl : idx.length = vals.length) (hn : idx.Nodup) (x : List ℝ)
    (hr : ∀ i ∈ idx, i < x.length) :
    ((idx.zip vals).foldl (fun acc p => acc.set p.1 p.2) x).length = x.length ∧
    (∀ j (h1 : j < idx.length) (h2 : j < vals.length),
      ((idx.zip vals).foldl (fun acc p => acc.set p.1 p.2) x)[idx[j]]? = some vals[j]) ∧
    (∀ i, i ∉ idx → ((idx.zip vals).foldl (fun acc p => acc.set p.1 p.2) x)[i]? = x[i]?) := by
  induction idx generalizing vals x with
  | nil => simp
  | cons a t ih =>
    cases vals with
    | nil => simp at hl
    | cons v vs =>
      simp only [List.nodup_cons] at hn
      simp only [List.zip_cons_cons, List.foldl_cons]
      obtain ⟨h1, h2, h3⟩ := ih vs (by simpa using hl) hn.2 (x.set a v) (fun i hi => by
        rw [List.length_set]; exact hr i (by simp [hi]))
      refine ⟨by rw [h1, List.length_set], ?_, ?_⟩
      · intro j hj1 hj2
        cases j with
        | zero =>
          simp only [List.getElem_cons_zero]
          rw [h3 a hn.1, List.getElem?_set_self (hr a (by simp))]
        | succ j =>
          simp only [List.getElem_cons_succ]
          exact h2 j _ _
      · intro i hi
        simp only [List.mem_cons, not_or] at hi
        rw [h3 i hi.2, List.getElem?_set_ne (Ne.symm hi.1)]

/-- C25. For well-formed DM records and a command vector with one entry per controlled actuator, unpacking succeeds; for each DM the
delta command has one value per actuator, equal to the control weight times the actuator's own entry at controlled actuators and to 0
everywhere else. -/
theorem C25_unpack (dms : List DmCtl) (parts : List (List ℝ)) (hw : WellFormed dms) (hs : Splits dms parts)
    (k : ℕ) (d : DmCtl) (part : List ℝ) (hd : dms[k]? = some d) (hp : parts[k]? = some part) :
    ∃ dv, deltaOf dms parts.flatten d = .ok dv ∧ dv.length = d.V.length ∧
      (∀ (j i : ℕ) (u : ℝ), d.actEle[j]? = some i → part[j]? = some u → dv[i]? = some (d.weight * u)) ∧
      (∀ i : ℕ, i < d.V.length → i ∉ d.actEle → dv[i]? = some 0) := by
  have hmem : d ∈ dms := List.mem_of_getElem? hd
  have hlen : part.length = d.Nele := by
    obtain ⟨h1, e1⟩ := List.getElem?_eq_some_iff.1 hd
    obtain ⟨h2, e2⟩ := List.getElem?_eq_some_iff.1 hp
    have := (List.forall₂_iff_get.1 hs).2 k h1 h2
    simp only [List.get_eq_getElem] at this
    rw [e1, e2] at this
    exact this
  have hl2 : d.actEle.length = (part.map fun u => d.weight * u).length := by
    rw [List.length_map, hlen, hw.nele d hmem]
  obtain ⟨h1, h2, h3⟩ := foldl_set_spec d.actEle (part.map fun u => d.weight * u) hl2 (hw.nodup d hmem)
    (List.replicate d.V.length 0) (fun i hi => by rw [List.length_replicate]; exact hw.range d hmem i hi)
  refine ⟨_, ?_, by rw [h1, List.length_replicate], ?_, ?_⟩
  · unfold deltaOf maskSelect
    rw [if_pos (flatten_length hs)]
    simp only [bind, Except.bind]
    rw [select_flatten hs hw.nums k d part hd hp]
    unfold scatterList
    rw [if_neg (by simpa using hl2), if_neg]
    simp only [List.any_eq_true, decide_eq_true_eq, not_exists, not_and, not_le, List.length_replicate]
    exact hw.range d hmem
  · intro j i u hji hju
    obtain ⟨hj1, rfl⟩ := List.getElem?_eq_some_iff.1 hji
    obtain ⟨hj2, rfl⟩ := List.getElem?_eq_some_iff.1 hju
    have := h2 j hj1 (by simpa using hj2)
    rw [this]; simp
  · intro i hi hni
    rw [h3 i hni, List.getElem?_replicate, if_pos hi]

/-- C25. `wrapup` unpacks every DM and adds the delta command to the present command. -/
theorem C25_wrapup (dms : List DmCtl) (parts : List (List ℝ)) (hw : WellFormed dms) (hs : Splits dms parts) :
    ∃ res, wrapup dms parts.flatten = .ok res ∧ res.length = dms.length ∧
      ∀ (k : ℕ) (d : DmCtl), dms[k]? = some d → ∃ dv, deltaOf dms parts.flatten d = .ok dv ∧
        res[k]? = some (dv, List.zipWith (· + ·) d.V dv) := by
  have hall : ∀ d ∈ dms, ∃ dv, deltaOf dms parts.flatten d = .ok dv := by
    intro d hd
    obtain ⟨k, hk, rfl⟩ := List.getElem_of_mem hd
    have hl := hs.length_eq
    obtain ⟨dv, h, -⟩ := C25_unpack dms parts hw hs k dms[k] (parts[k]'(by omega)) (by simp [hk]) (by simp [show k < parts.length by omega])
    exact ⟨dv, h⟩
  have gen : ∀ l : List DmCtl, (∀ d ∈ l, ∃ dv, deltaOf dms parts.flatten d = .ok dv) →
      ∃ res, l.mapM (fun d => do
        let dv ← deltaOf dms parts.flatten d
        return (dv, List.zipWith (· + ·) d.V dv)) = Except.ok res ∧ res.length = l.length ∧
      ∀ (k : ℕ) (d : DmCtl), l[k]? = some d → ∃ dv, deltaOf dms parts.flatten d = .ok dv ∧
        res[k]? = some (dv, List.zipWith (· + ·) d.V dv) := by
    intro l
    induction l with
    | nil => intro _; exact ⟨[], rfl, rfl, by simp⟩
    | cons d t ih =>
      intro h
      obtain ⟨dv, hdv⟩ := h d (by simp)
      obtain ⟨res, hr, hlen, hget⟩ := ih (fun d hd => h d (by simp [hd]))
      refine ⟨(dv, List.zipWith (· + ·) d.V dv) :: res, ?_, by simp [hlen], ?_⟩
      · rw [List.mapM_cons, hr, hdv]; rfl
      · intro k d' hk
        cases k with
        | zero => simp at hk; subst hk; exact ⟨dv, hdv, rfl⟩
        | succ k => simp at hk; simpa using hget k d' hk
  exact gen dms hall

/-- C25. Round trip: reading the delta command of each DM back at its controlled actuators (with unit weight) returns the command
vector. -/
theorem C25_round_trip (dms : List DmCtl) (parts : List (List ℝ)) (hw : WellFormed dms) (hs : Splits dms parts)
    (k : ℕ) (d : DmCtl) (part : List ℝ) (hd : dms[k]? = some d) (hp : parts[k]? = some part) (hone : d.weight = 1) :
    ∃ dv, deltaOf dms parts.flatten d = .ok dv ∧ d.actEle.map (fun i => dv.getD i 0) = part := by
  obtain ⟨dv, h1, h2, h3, h4⟩ := C25_unpack dms parts hw hs k d part hd hp
  have hlen : part.length = d.actEle.length := by
    obtain ⟨g1, e1⟩ := List.getElem?_eq_some_iff.1 hd
    obtain ⟨g2, e2⟩ := List.getElem?_eq_some_iff.1 hp
    have := (List.forall₂_iff_get.1 hs).2 k g1 g2
    simp only [List.get_eq_getElem] at this
    rw [e1, e2] at this
    rw [this, hw.nele d (List.mem_of_getElem? hd)]
  refine ⟨dv, h1, ?_⟩
  apply List.ext_getElem
  · simp [hlen]
  · intro j hj1 hj2
    have hj1' : j < d.actEle.length := by simpa using hj1
    have := h3 j d.actEle[j] part[j] (by simp [hj1']) (by simp [hj2])
    rw [List.getElem_map, List.getD_eq_getElem?_getD, this, hone]; simp

/-- C25. A command vector of the wrong length is rejected with `IndexError`. -/
theorem C25_wrong_length (dms : List DmCtl) (d : DmCtl) (duVec : List ℝ) (h : duVec.length ≠ (legend dms).length) :
    deltaOf dms duVec d = .error .indexError := by
  unfold deltaOf maskSelect; rw [if_neg h]; rfl

/-- C25. The vector of present commands made by `init` is the packing that unpacking inverts: for well-formed DM records it has one entry per
legend entry, and unpacked (with unit weight) it gives each DM its present voltages at the controlled actuators and 0 elsewhere. -/
theorem C25_present_command (dms : List DmCtl) (hw : WellFormed dms) (k : ℕ) (d : DmCtl) (hd : dms[k]? = some d) (hone : d.weight = 1) :
    (uVec dms).length = (legend dms).length ∧
    ∃ dv, deltaOf dms (uVec dms) d = .ok dv ∧ dv.length = d.V.length ∧
      ∀ (i : ℕ) (h : i < d.V.length), dv[i]? = some (if i ∈ d.actEle then d.V[i] else 0) := by
  have hs : Splits dms (dms.map fun d => d.actEle.map fun i => d.V.getD i 0) := by
    rw [Splits, List.forall₂_map_right_iff]
    rw [List.forall₂_iff_get]
    refine ⟨rfl, fun i h1 h2 => ?_⟩
    rw [List.length_map]
    exact (hw.nele _ (List.get_mem dms ⟨i, h2⟩)).symm
  have hu : uVec dms = (dms.map fun d => d.actEle.map fun i => d.V.getD i 0).flatten := by
    unfold uVec; rw [List.flatMap_def]
  rw [hu]
  refine ⟨flatten_length hs, ?_⟩
  obtain ⟨dv, h1, h2, h3, h4⟩ := C25_unpack dms _ hw hs k d (d.actEle.map fun i => d.V.getD i 0) hd (by rw [List.getElem?_map, hd]; rfl)
  refine ⟨dv, h1, h2, fun i hi => ?_⟩
  split_ifs with hm
  · obtain ⟨j, hj, rfl⟩ := List.getElem_of_mem hm
    rw [h3 j _ _ (List.getElem?_eq_getElem hj) (by rw [List.getElem?_map, List.getElem?_eq_getElem hj]; rfl), hone, one_mul]
    simp only [List.getD_eq_getElem?_getD, List.getElem?_eq_getElem hi, Option.getD_some]
  · exact h4 i hi hm

/-- two DMs of four actuators with culled sets -/
def sampleDms : List DmCtl := [⟨1, [0, 0, 0, 0], [1, 3], 2, 1⟩, ⟨2, [1, 2, 3, 4], [0, 2, 3], 3, 2⟩]

example : WellFormed sampleDms ∧ Splits sampleDms [[5, 6], [7, 8, 9]] := by
  refine ⟨⟨by decide, ?_, ?_, ?_⟩, ?_⟩
  · simp [sampleDms]
  · simp [sampleDms]
  · simp [sampleDms]
  · simp [Splits, sampleDms]

/-! ## C26 -/

section C26
variable {P Md : Type*} [Fintype P] [Fintype Md] {n : ℕ}

theorem addTied_spec (act : List ℕ) (tied : List (ℕ × ℕ)) (hn : act.Nodup) :
    (addTied act tied).Nodup ∧ ∀ i, i ∈ addTied act tied ↔ i ∈ act ∨ ∃ t ∈ tied, i = t.1 ∨ i = t.2 := by
  induction tied generalizing act with
  | nil => simp [addTied, hn]
  | cons t ts ih =>
    have one : ∀ (a : List ℕ) (x : ℕ), a.Nodup → (if x ∈ a then a else a ++ [x]).Nodup ∧
        ∀ i, i ∈ (if x ∈ a then a else a ++ [x]) ↔ i ∈ a ∨ i = x := by
      intro a x ha
      split
      · next h => exact ⟨ha, fun i => ⟨Or.inl, fun h' => h'.elim id (fun e => e ▸ h)⟩⟩
      · next h =>
        refine ⟨?_, fun i => by simp⟩
        rw [List.nodup_append]
        exact ⟨ha, by simp, fun x' hx' y hy e => h (by simp at hy; rw [← hy, ← e]; exact hx')⟩
    obtain ⟨n1, m1⟩ := one act t.1 hn
    obtain ⟨n2, m2⟩ := one _ t.2 n1
    obtain ⟨n3, m3⟩ := ih _ n2
    refine ⟨n3, fun i => ?_⟩
    have e : addTied act (t :: ts) = addTied (if t.2 ∈ (if t.1 ∈ act then act else act ++ [t.1]) then
        (if t.1 ∈ act then act else act ++ [t.1]) else (if t.1 ∈ act then act else act ++ [t.1]) ++ [t.2]) ts := rfl
    rw [e, m3 i, m2 i, m1 i]
    simp only [List.mem_cons, exists_eq_or_imp, or_assoc]

/-- C26. When the Jacobian has one column per actuator (`n` columns = all actuators) and the tied pairs are in range, culling succeeds and
keeps exactly the actuators whose summed squared response is at least `10^logGmin` of the strongest (non-zero) one, plus the members of
tied pairs, in strictly increasing order. -/
theorem C26_kept_set (G : P → Fin n → Md → ℂ) (logGmin : ℝ) (tied : List (ℕ × ℕ)) (ht : ∀ t ∈ tied, t.1 < n ∧ t.2 < n) :
    ∃ act, cull G logGmin tied = .ok act ∧ act.Pairwise (· < ·) ∧
      ∀ i : Fin n, i.val ∈ act ↔
        ((∃ k, 0 < response G k) ∧ ∀ k, (10 : ℝ) ^ logGmin * response G k ≤ response G i) ∨ ∃ t ∈ tied, i.val = t.1 ∨ i.val = t.2 := by
  classical
  have hnd : (strongColumns G logGmin).Nodup := by
    unfold strongColumns
    exact List.Nodup.map Fin.val_injective ((List.nodup_finRange n).filter _)
  obtain ⟨h1, h2⟩ := addTied_spec (strongColumns G logGmin) tied hnd
  set L := addTied (strongColumns G logGmin) tied with hL
  have hperm : (L.mergeSort (· ≤ ·)).Perm L := List.mergeSort_perm _ _
  have hstrong : ∀ i, i ∈ strongColumns G logGmin → i < n := by
    intro i hi
    unfold strongColumns at hi
    obtain ⟨j, -, rfl⟩ := List.mem_map.1 hi
    exact j.isLt
  have hlt : ∀ i ∈ L, i < n := by
    intro i hi
    rcases (h2 i).1 hi with h | ⟨t, htm, h | h⟩
    · exact hstrong i h
    · rw [h]; exact (ht t htm).1
    · rw [h]; exact (ht t htm).2
  refine ⟨L.mergeSort (· ≤ ·), ?_, ?_, ?_⟩
  · unfold cull
    simp only [← hL]
    rw [if_neg]
    simp only [List.any_eq_true, decide_eq_true_eq, not_exists, not_and, not_le]
    intro i hi
    exact hlt i (hperm.mem_iff.1 hi)
  · have hs := List.pairwise_mergeSort' (· ≤ ·) L
    have hn : (L.mergeSort (· ≤ ·)).Nodup := hperm.nodup_iff.2 h1
    exact (hs.and hn).imp fun h => lt_of_le_of_ne h.1 h.2
  · intro i
    rw [hperm.mem_iff, h2 i.val]
    refine or_congr ?_ Iff.rfl
    unfold strongColumns
    constructor
    · intro h
      obtain ⟨j, hj, e⟩ := List.mem_map.1 h
      have : j = i := Fin.ext e
      subst this
      simpa using (List.mem_filter.1 hj).2
    · intro h
      refine List.mem_map.2 ⟨i, List.mem_filter.2 ⟨List.mem_finRange i, by simpa using h⟩, rfl⟩

/-- C26. The strongest actuator is always kept when the threshold is at most 0 (i.e. a relative response of at most 1) and some actuator
responds. -/
theorem C26_never_empty (G : P → Fin n → Md → ℂ) (logGmin : ℝ) (h0 : logGmin ≤ 0) (k : Fin n) (hk : 0 < response G k)
    (hmax : ∀ j, response G j ≤ response G k) : k.val ∈ strongColumns G logGmin := by
  classical
  unfold strongColumns
  refine List.mem_map.2 ⟨k, List.mem_filter.2 ⟨List.mem_finRange k, ?_⟩, rfl⟩
  simp only [decide_eq_true_eq]
  refine ⟨⟨k, hk⟩, fun j => ?_⟩
  have h1 : (10:ℝ) ^ logGmin ≤ 1 := Real.rpow_le_one_of_one_le_of_nonpos (by norm_num) h0
  have h2 : 0 ≤ response G j := by
    unfold response
    exact Finset.sum_nonneg fun p _ => div_nonneg (Finset.sum_nonneg fun m _ => normSq_nonneg _) (by positivity)
  nlinarith [hmax j]

/-- Jacobian recomputed for an already culled set: column `k` belongs to actuator `old[k]`. -/
def restrict {N : ℕ} (G : P → Fin N → Md → ℂ) (old : Fin n → Fin N) : P → Fin n → Md → ℂ := fun p k m => G p (old k) m

/-- C26. Culling works with column positions: when the Jacobian's columns belong to the actuators `old 0, old 1, …`, the kept set names the
responsive actuators for every Jacobian if and only if column `k` belongs to actuator `k` (in particular when all actuators are
controlled, `n = N`). -/
theorem C26_right_actuators_iff {N : ℕ} [Nonempty P] [Nonempty Md] (old : Fin n → Fin N) (logGmin : ℝ) (h0 : logGmin ≤ 0) :
    (∀ G : P → Fin N → Md → ℂ, strongColumns (restrict G old) logGmin =
        (((List.finRange n).filter fun k => open Classical in decide ((∃ j, 0 < response G (old j)) ∧
          ∀ j, (10 : ℝ) ^ logGmin * response G (old j) ≤ response G (old k))).map fun k => (old k).val))
      ↔ ∀ k, (old k).val = k.val := by
  classical
  have hr : ∀ (G : P → Fin N → Md → ℂ) k, response (restrict G old) k = response G (old k) := fun G k => rfl
  constructor
  · intro h k
    by_contra hk
    -- first position that is off
    have hex : ∃ m : ℕ, ∃ hm : m < n, (old ⟨m, hm⟩).val ≠ m := ⟨k.val, k.isLt, hk⟩
    have hsp := Nat.find_spec hex
    obtain ⟨hm, hne⟩ := hsp
    have hlt : ∀ j : Fin n, j.val < Nat.find hex → (old j).val = j.val := by
      intro j hj
      by_contra hc
      exact Nat.find_min hex hj ⟨j.isLt, hc⟩
    set m := Nat.find hex with hmdef
    let G : P → Fin N → Md → ℂ := fun _ j _ => if j = old ⟨m, hm⟩ then 1 else 0
    have hpos : 0 < response G (old ⟨m, hm⟩) := by
      simp only [response, G, if_true, map_one, Finset.sum_const, Finset.card_univ, nsmul_eq_mul, mul_one]
      have h1 : (0:ℝ) < Fintype.card P := by exact_mod_cast Fintype.card_pos
      have h2 : (0:ℝ) < Fintype.card Md := by exact_mod_cast Fintype.card_pos
      positivity
    have hzero : ∀ j, j ≠ old ⟨m, hm⟩ → response G j = 0 := by
      intro j hj
      simp [response, G, hj]
    have hstrong : ∀ j : Fin n, ((∃ j, 0 < response G (old j)) ∧
        ∀ i, (10 : ℝ) ^ logGmin * response G (old i) ≤ response G (old j)) ↔ old j = old ⟨m, hm⟩ := by
      intro j
      constructor
      · rintro ⟨-, h2⟩
        by_contra hc
        have := h2 ⟨m, hm⟩
        rw [hzero _ hc] at this
        have h10 : (0:ℝ) < (10:ℝ) ^ logGmin := Real.rpow_pos_of_pos (by norm_num) _
        nlinarith [mul_pos h10 hpos]
      · intro e
        refine ⟨⟨j, by rw [e]; exact hpos⟩, fun i => ?_⟩
        have h1 : (10:ℝ) ^ logGmin ≤ 1 := Real.rpow_le_one_of_one_le_of_nonpos (by norm_num) h0
        by_cases hi : old i = old ⟨m, hm⟩
        · rw [hi, e]; nlinarith
        · rw [hzero _ hi, e]; linarith
    have hG := h G
    unfold strongColumns at hG
    simp only [hr] at hG
    have hl := congrArg (fun l => m ∈ l) hG
    simp only [List.mem_map, List.mem_filter, decide_eq_true_eq, List.mem_finRange, true_and, eq_iff_iff] at hl
    obtain ⟨j, hj, e⟩ := hl.1 ⟨⟨m, hm⟩, (hstrong _).2 rfl, rfl⟩
    rw [(hstrong j).1 hj] at e
    exact hne e
  · intro h G
    unfold strongColumns
    simp only [hr]
    refine List.map_congr_left fun k _ => (h k).symm

/-- C26 is false when the Jacobian was computed for an already culled set (relinearisation in an iteration where the DM set changes:
falco/wfsc.py:79-83 computes the Jacobian with the old `act_ele` before culling resets it): with actuators 1 and 2 of three controlled and
actuator 2 the only responsive one, the new controlled set is {1}, not {2}. -/
theorem C26_stale_set_violated : ∃ (G : Fin 1 → Fin 3 → Fin 1 → ℂ) (old : Fin 2 → Fin 3),
    cull (restrict G old) (-1) [] = .ok [1] ∧ response G 1 = 0 ∧ response G 2 = 1 := by
  refine ⟨fun _ j _ => if j = 2 then 1 else 0, fun k => if k = 0 then 1 else 2, ?_, ?_, ?_⟩
  · have r0 : response (restrict (fun (_ : Fin 1) (j : Fin 3) (_ : Fin 1) => if j = 2 then (1:ℂ) else 0)
        (fun k : Fin 2 => if k = 0 then 1 else 2)) 0 = 0 := by simp [response, restrict]
    have r1 : response (restrict (fun (_ : Fin 1) (j : Fin 3) (_ : Fin 1) => if j = 2 then (1:ℂ) else 0)
        (fun k : Fin 2 => if k = 0 then 1 else 2)) 1 = 1 := by simp [response, restrict]
    have hpow : (10:ℝ) ^ (-1:ℝ) = 1 / 10 := by rw [Real.rpow_neg_one]; norm_num
    have hs : strongColumns (restrict (fun (_ : Fin 1) (j : Fin 3) (_ : Fin 1) => if j = 2 then (1:ℂ) else 0)
        (fun k : Fin 2 => if k = 0 then 1 else 2)) (-1) = [1] := by
      unfold strongColumns
      rw [List.finRange_succ, List.finRange_succ]
      simp only [List.finRange_zero, List.map_nil, List.map_cons, hpow, Fin.forall_fin_two, Fin.exists_fin_two, r0, r1]
      rw [List.filter_cons_of_neg, List.filter_cons_of_pos]
      · rfl
      · have : (Fin.succ 0 : Fin 2) = 1 := rfl
        rw [this, r1]; norm_num
      · rw [r0]; norm_num
    unfold cull addTied
    rw [hs]
    simp
  · simp [response]
  · simp [response]

example : ∃ act, cull (fun (_ : Fin 1) (j : Fin 4) (_ : Fin 1) => ((j.val : ℝ) : ℂ)) (-1) [(0, 3)] = .ok act ∧ 0 ∈ act ∧ 3 ∈ act := by
  obtain ⟨act, h, -, hm⟩ := C26_kept_set (fun (_ : Fin 1) (j : Fin 4) (_ : Fin 1) => ((j.val : ℝ) : ℂ)) (-1) [(0, 3)] (by simp)
  exact ⟨act, h, (hm 0).2 (Or.inr ⟨(0, 3), by simp⟩), (hm 3).2 (Or.inr ⟨(0, 3), by simp⟩)⟩

end C26

/-! ## C27 -/

section C27
variable {P ι Md St : Type*} [Fintype P] [Fintype ι] [Fintype Md]

omit [Fintype P] [Fintype ι] [Fintype Md] in
/-- C27. What really happens: in the `i`-th iteration after a relinearisation that produced the Jacobian `G`, whatever came before and
after, the controller uses `G` with the spatial weights raised to the power `i + 1`. -/
theorem C27_actual_weights (star : Md → St) (W : P → St → ℝ) (cell : P → ι → Md → ℂ) (before after : List (Option (P → ι → Md → ℂ)))
    (G : P → ι → Md → ℂ) (k i : ℕ) (hi : i ≤ k) :
    (jacRun star W cell (before ++ some G :: (List.replicate k none ++ after)))[before.length + i]?
      = some (fun p j m => G p j m * (W p (star m) : ℂ) ^ (i + 1)) := by
  have block : ∀ (k i e : ℕ) (G : P → ι → Md → ℂ), i < k →
      (jacRun star W (fun p j m => G p j m * (W p (star m) : ℂ) ^ e) (List.replicate k none ++ after))[i]?
        = some (fun p j m => G p j m * (W p (star m) : ℂ) ^ (e + i + 1)) := by
    intro k
    induction k with
    | zero => intro i e G h; omega
    | succ k ih =>
      intro i e G h
      rw [List.replicate_succ, List.cons_append]
      unfold jacRun
      have hstep : (jacIter star W (fun p j m => G p j m * (W p (star m) : ℂ) ^ e) none).2
          = fun p j m => G p j m * (W p (star m) : ℂ) ^ (e + 1) := by
        funext p j m
        simp only [jacIter, weightJac, Option.getD_none]
        rw [pow_succ]; ring
      cases i with
      | zero =>
        have h1 : (jacIter star W (fun p j m => G p j m * (W p (star m) : ℂ) ^ e) none).1
          = (jacIter star W (fun p j m => G p j m * (W p (star m) : ℂ) ^ e) none).2 := rfl
        simp only [List.getElem?_cons_zero]
        rw [h1, hstep]
      | succ i =>
        simp only [List.getElem?_cons_succ]
        rw [hstep, ih i (e + 1) G (by omega)]
        congr 1; funext p j m; congr 2; omega
  induction before generalizing cell with
  | nil =>
    simp only [List.nil_append, List.length_nil, zero_add]
    unfold jacRun
    have hstep : (jacIter star W cell (some G)).2 = fun p j m => G p j m * (W p (star m) : ℂ) ^ 1 := by
      funext p j m; simp [jacIter, weightJac]
    cases i with
    | zero =>
      have h1 : (jacIter star W cell (some G)).1 = (jacIter star W cell (some G)).2 := rfl
      simp only [List.getElem?_cons_zero]
      rw [h1, hstep]
    | succ i =>
      simp only [List.getElem?_cons_succ]
      rw [hstep, block k i 1 G (by omega)]
      congr 1; funext p j m; congr 2; omega
  | cons b t ih =>
    rw [List.cons_append]
    unfold jacRun
    rw [List.length_cons, show t.length + 1 + i = (t.length + i) + 1 by omega, List.getElem?_cons_succ]
    exact ih _

omit [Fintype P] [Fintype ι] [Fintype Md] in
/-- C27. The weights are applied exactly once in every relinearising iteration; and in all iterations when every weight is 0 or 1. -/
theorem C27_once (star : Md → St) (W : P → St → ℝ) (cell : P → ι → Md → ℂ) (before after : List (Option (P → ι → Md → ℂ)))
    (G : P → ι → Md → ℂ) (k i : ℕ) (hi : i ≤ k) (h : i = 0 ∨ ∀ p s, W p s = 0 ∨ W p s = 1) :
    (jacRun star W cell (before ++ some G :: (List.replicate k none ++ after)))[before.length + i]?
      = some (fun p j m => G p j m * (W p (star m) : ℂ)) := by
  rw [C27_actual_weights star W cell before after G k i hi]
  congr 1
  funext p j m
  rcases h with h | h
  · subst h; simp
  · rcases h p (star m) with e | e <;> rw [e] <;> simp

/-- C27. With non-negative weights, an iteration that does not relinearise (`i ≥ 1` after the last relinearisation) uses the once-weighted
Jacobian for every computed Jacobian if and only if all weights are 0 or 1. -/
theorem C27_once_iff [Nonempty ι] (star : Md → St) (hs : Function.Surjective star) (W : P → St → ℝ) (hW : ∀ p s, 0 ≤ W p s)
    (cell : P → ι → Md → ℂ) (before after : List (Option (P → ι → Md → ℂ))) (k i : ℕ) (hi : i ≤ k) (h1 : 1 ≤ i) :
    (∀ G, (jacRun star W cell (before ++ some G :: (List.replicate k none ++ after)))[before.length + i]?
      = some (weightJac star W G)) ↔ ∀ p s, W p s = 0 ∨ W p s = 1 := by
  constructor
  · intro h p s
    obtain ⟨m, rfl⟩ := hs s
    have := h (fun _ _ _ => 1)
    rw [C27_actual_weights star W cell before after _ k i hi, Option.some_inj] at this
    have h2 := congrFun (congrFun (congrFun this p) (Classical.arbitrary ι)) m
    simp only [weightJac, one_mul] at h2
    have h3 : W p (star m) ^ (i + 1) = W p (star m) := by exact_mod_cast h2
    by_cases h0 : W p (star m) = 0
    · exact Or.inl h0
    · right
      have h4 : W p (star m) ^ i = 1 := by
        have : W p (star m) ^ i * W p (star m) = 1 * W p (star m) := by rw [← pow_succ, h3, one_mul]
        exact mul_right_cancel₀ h0 this
      exact (pow_eq_one_iff_of_nonneg (hW _ _) (by omega)).1 h4
  · intro h G
    exact C27_once star W cell before after G k i hi (Or.inr h)

/-- C27 is false: weight 2, one relinearisation followed by one iteration without: the second iteration uses 4·G instead of 2·G. -/
theorem C27_violated : ∃ (W : Fin 1 → Fin 1 → ℝ) (G used : Fin 1 → Fin 1 → Fin 1 → ℂ),
    (jacRun (fun _ => 0) W 0 [some G, none])[1]? = some used ∧ used ≠ weightJac (fun _ => 0) W G := by
  refine ⟨fun _ _ => 2, fun _ _ _ => 1, _, C27_actual_weights (fun _ => 0) _ 0 [] [] _ 1 1 le_rfl, ?_⟩
  intro h
  have := congrFun (congrFun (congrFun h 0) 0) 0
  simp [weightJac] at this
  norm_num at this

end C27

/-! ## C29 -/

section C29
variable {n : ℕ}

/-- C29. With control weight 1 (more generally between 0 and 1 when the present command is within limits) any optimiser output within
the bounds keeps command plus bias within the DM limits. -/
theorem C29_within_limits (d : Dm.State n) (weight : ℝ) (du : Fin n → ℝ) (i : Fin n)
    (hb : (adBounds d i).1 ≤ du i ∧ du i ≤ (adBounds d i).2)
    (hw : weight = 1 ∨ (0 ≤ weight ∧ weight ≤ 1 ∧ d.Vmin ≤ d.V i + d.biasMap i ∧ d.V i + d.biasMap i ≤ d.Vmax)) :
    d.Vmin ≤ adNewV d weight du i + d.biasMap i ∧ adNewV d weight du i + d.biasMap i ≤ d.Vmax := by
  unfold adBounds at hb
  unfold adNewV
  simp only at hb
  rcases hw with rfl | ⟨h0, h1, h2, h3⟩
  · constructor <;> linarith
  · constructor <;> nlinarith

/-- C29. The bounds contain the zero command exactly when the present command is within limits. -/
theorem C29_zero_feasible (d : Dm.State n) (i : Fin n) :
    ((adBounds d i).1 ≤ 0 ∧ 0 ≤ (adBounds d i).2) ↔ (d.Vmin ≤ d.V i + d.biasMap i ∧ d.V i + d.biasMap i ≤ d.Vmax) := by
  unfold adBounds; simp only; constructor <;> rintro ⟨h1, h2⟩ <;> constructor <;> linarith

/-- C29. With weight 1 the following model evaluation does not clip anything: no new pins arise at live actuators moved within the bounds. -/
theorem C29_no_new_pins (d : Dm.State n) (du : Fin n → ℝ) (i : Fin n) (hd : d.dead i = false)
    (hb : (adBounds d i).1 ≤ du i ∧ du i ≤ (adBounds d i).2) :
    ∀ p ∈ Dm.newPins { d with V := adNewV d 1 du }, p.1 ≠ i := by
  apply Dm.newPins_not_of_inRange
  have := C29_within_limits d 1 du i hb (Or.inl rfl)
  unfold Dm.InRange Dm.total
  simp only [hd, Bool.false_eq_true, if_false]
  exact this

/-- C29. Exactly when the bounds protect the limits: with a non-negative control weight and `Vmin < Vmax`, every optimiser output within the
bounds keeps command plus bias within the limits if and only if the weight is 1, or below 1 with the present command already in range. -/
theorem C29_within_limits_iff (d : Dm.State n) (weight : ℝ) (h0 : 0 ≤ weight) (hv : d.Vmin < d.Vmax) (i : Fin n) :
    (∀ du : Fin n → ℝ, (adBounds d i).1 ≤ du i → du i ≤ (adBounds d i).2 →
      d.Vmin ≤ adNewV d weight du i + d.biasMap i ∧ adNewV d weight du i + d.biasMap i ≤ d.Vmax) ↔
    (weight = 1 ∨ (weight < 1 ∧ d.Vmin ≤ d.V i + d.biasMap i ∧ d.V i + d.biasMap i ≤ d.Vmax)) := by
  constructor
  · intro h
    have hle : (adBounds d i).1 ≤ (adBounds d i).2 := by unfold adBounds; simp only; linarith
    have h1 := (h (fun _ => (adBounds d i).1) le_rfl hle).1
    have h2 := (h (fun _ => (adBounds d i).2) hle le_rfl).2
    unfold adNewV adBounds at h1 h2
    simp only at h1 h2
    rcases lt_trichotomy weight 1 with hw | hw | hw
    · refine Or.inr ⟨hw, ?_, ?_⟩
      · by_contra hc; push Not at hc; nlinarith
      · by_contra hc; push Not at hc; nlinarith
    · exact Or.inl hw
    · exfalso
      rcases le_total (d.V i + d.biasMap i) d.Vmin with hc | hc <;> nlinarith
  · intro h du hl hu
    exact C29_within_limits d weight du i ⟨hl, hu⟩ (h.imp id fun h => ⟨h0, h.1.le, h.2⟩)

/-- C29 fails for a control weight above 1: the bounds are put on the unweighted command. -/
theorem C29_weight_violated : ∃ (d : Dm.State 1) (du : Fin 1 → ℝ), (adBounds d 0).1 ≤ du 0 ∧ du 0 ≤ (adBounds d 0).2 ∧
    d.Vmax < adNewV d 2 du 0 + d.biasMap 0 := by
  refine ⟨Dm.defaultDm (fun _ => 0), fun _ => 400, ?_⟩
  norm_num [adBounds, adNewV, Dm.defaultDm]

end C29

end Verif.Ctrl
