import Verif.Model.Jac
import Mathlib.Tactic

/-!
# Properties of the Jacobian assembly (C30, C31)
-/

set_option linter.unusedSectionVars false

namespace Verif.Jac
open Verif

variable {M : ℕ} {P : Type}

/-! ## C30 -/

theorem setCol_ok (G : List (Col M P)) (j : ℕ) (m : Fin M) (v : P → ℂ) (hj : j < G.length) :
    setCol G j m v = .ok (G.set j (Function.update G[j] m v)) := by
  unfold setCol; rw [List.getElem?_eq_getElem hj]

theorem setCol_err (G : List (Col M P)) (j : ℕ) (m : Fin M) (v : P → ℂ) (hj : G.length ≤ j) :
    setCol G j m v = .error .indexError := by
  unfold setCol; rw [List.getElem?_eq_none hj]

/-- A sequence of column writes to distinct (column, mode) places, all in range. -/
theorem foldlM_writes (ws : List (ℕ × Fin M)) (val : ℕ × Fin M → P → ℂ) (G : List (Col M P))
    (hr : ∀ w ∈ ws, w.1 < G.length) :
    ∃ G', ws.foldlM (fun G w => setCol G w.1 w.2 (val w)) G = .ok G' ∧ G'.length = G.length ∧
      ∀ (k : ℕ) (hk : k < G.length) (hk' : k < G'.length) (m : Fin M),
        G'[k] m = if (k, m) ∈ ws then val (k, m) else G[k] m := by
  induction ws generalizing G with
  | nil => exact ⟨G, rfl, rfl, fun k hk hk' m => by simp⟩
  | cons w ws ih =>
    have hw := hr w (by simp)
    obtain ⟨G', h1, h2, h3⟩ := ih (G.set w.1 (Function.update G[w.1] w.2 (val w)))
      (fun w' hw' => by rw [List.length_set]; exact hr w' (by simp [hw']))
    refine ⟨G', ?_, by rw [h2, List.length_set], ?_⟩
    · rw [List.foldlM_cons, setCol_ok G w.1 w.2 (val w) hw]; exact h1
    · intro k hk hk' m
      rw [h3 k (by rwa [List.length_set]) hk' m]
      by_cases hmem : (k, m) ∈ ws
      · simp [hmem]
      · rw [if_neg hmem]
        by_cases hkm : (k, m) = w
        · subst hkm; simp
        · rw [if_neg (by simp [hmem, hkm])]
          by_cases hk2 : w.1 = k
          · subst hk2
            have : m ≠ w.2 := fun h => hkm (by rw [h])
            rw [List.getElem_set_self, Function.update_of_ne this]
          · rw [List.getElem_set_ne hk2]

theorem foldlM_flat {α β γ : Type} (l : List α) (f : α → List β) (step : γ → β → Except PyErr γ) (g : γ) :
    (l.flatMap f).foldlM step g = l.foldlM (fun g a => (f a).foldlM step g) g := by
  induction l generalizing g with
  | nil => rfl
  | cons a l ih =>
    rw [List.flatMap_cons, List.foldlM_append, List.foldlM_cons]
    exact bind_congr fun g => ih g

theorem foldlM_map' {α β γ : Type} (l : List α) (f : α → β) (step : γ → β → Except PyErr γ) (g : γ) :
    (l.map f).foldlM step g = l.foldlM (fun g a => step g (f a)) g := by
  induction l generalizing g with
  | nil => rfl
  | cons a l ih => rw [List.map_cons, List.foldlM_cons, List.foldlM_cons]; exact bind_congr fun g => ih g

/-- C30. The serial computation, for a DM in `dm_ind`, never fails and stores at position `k` the response of the `k`-th controlled
actuator, for every mode. -/
theorem C30_serial (actEle : List ℕ) (col : Fin M → ℕ → P → ℂ) :
    ∃ G, serial true actEle.length actEle col = .ok G ∧ G.length = actEle.length ∧
      ∀ (k : ℕ) (hk : k < actEle.length) (hk' : k < G.length) (m : Fin M), G[k] m = col m actEle[k] := by
  have hform : serial true actEle.length actEle col =
      ((List.finRange M).flatMap fun m => (List.range actEle.length).map fun k => (k, m)).foldlM
        (fun G w => setCol G w.1 w.2 ((fun w : ℕ × Fin M => col w.2 (actEle.getD w.1 0)) w)) (zeros actEle.length) := by
    rw [foldlM_flat]
    unfold serial
    rw [if_pos rfl]
    congr 1
    funext G m
    rw [foldlM_map']
    have : actEle.zipIdx = (List.range actEle.length).map fun k => (actEle.getD k 0, k) := by
      apply List.ext_getElem
      · simp
      · intro k h1 h2
        have hk : k < actEle.length := by simpa using h1
        simp [hk]
    rw [this, foldlM_map']
  rw [hform]
  obtain ⟨G, h1, h2, h3⟩ := foldlM_writes ((List.finRange M).flatMap fun m => (List.range actEle.length).map fun k => (k, m))
    (fun w : ℕ × Fin M => col w.2 (actEle.getD w.1 0)) (zeros actEle.length) (by
      intro w hw
      simp only [List.mem_flatMap, List.mem_map, List.mem_range] at hw
      obtain ⟨m, -, k, hk, rfl⟩ := hw
      simpa [zeros] using hk)
  refine ⟨G, h1, by rw [h2]; simp [zeros], fun k hk hk' m => ?_⟩
  rw [h3 k (by simpa [zeros] using hk) hk' m, if_pos]
  · simp [hk]
  · simp only [List.mem_flatMap, List.mem_map, List.mem_range]
    exact ⟨m, List.mem_finRange m, k, hk, rfl⟩

theorem parallel_form (Nele : ℕ) (actEle : List ℕ) (col : Fin M → ℕ → P → ℂ) :
    parallel Nele actEle col = (actEle.flatMap fun iact => (List.finRange M).map fun m => (iact, m)).foldlM
        (fun G w => setCol G w.1 w.2 ((fun w : ℕ × Fin M => col w.2 w.1) w)) (zeros Nele) := by
  unfold parallel
  rw [foldlM_flat, foldlM_flat]
  congr 1
  funext G a
  rw [foldlM_map', foldlM_map']

/-- C30. The parallel computation stores the response of actuator `iact` at position `iact`. -/
theorem C30_parallel (Nele : ℕ) (actEle : List ℕ) (col : Fin M → ℕ → P → ℂ) (hr : ∀ i ∈ actEle, i < Nele) :
    ∃ G, parallel Nele actEle col = .ok G ∧ G.length = Nele ∧
      ∀ (k : ℕ) (_ : k < Nele) (hk' : k < G.length) (m : Fin M), G[k] m = if k ∈ actEle then col m k else fun _ => 0 := by
  rw [parallel_form]
  obtain ⟨G, h1, h2, h3⟩ := foldlM_writes (actEle.flatMap fun iact => (List.finRange M).map fun m => (iact, m))
    (fun w : ℕ × Fin M => col w.2 w.1) (zeros Nele) (by
      intro w hw
      simp only [List.mem_flatMap, List.mem_map] at hw
      obtain ⟨i, hi, m, -, rfl⟩ := hw
      simpa [zeros] using hr i hi)
  refine ⟨G, h1, by rw [h2]; simp [zeros], fun k hk hk' m => ?_⟩
  rw [h3 k (by simpa [zeros] using hk) hk' m]
  have hiff : (k, m) ∈ (actEle.flatMap fun iact => (List.finRange M).map fun m => (iact, m)) ↔ k ∈ actEle := by
    simp only [List.mem_flatMap, List.mem_map]
    constructor
    · rintro ⟨i, hi, m', -, h⟩
      obtain ⟨rfl, -⟩ := Prod.mk.inj h
      exact hi
    · intro h; exact ⟨k, h, m, List.mem_finRange m, rfl⟩
  simp only [hiff]
  by_cases h : k ∈ actEle
  · simp [h]
  · simp only [h, if_false]; unfold zeros; rw [List.getElem_replicate]

/-- C30. With no actuator culled (`act_ele = 0 … Nele-1`) and the DM in `dm_ind`, the two computations give the same Jacobian. -/
theorem C30_agree (n : ℕ) (col : Fin M → ℕ → P → ℂ) :
    serial true n (List.range n) col = parallel n (List.range n) col := by
  obtain ⟨G, h1, h2, h3⟩ := C30_serial (List.range n) col
  obtain ⟨G', h1', h2', h3'⟩ := C30_parallel n (List.range n) col (fun i hi => List.mem_range.1 hi)
  rw [List.length_range] at h1 h2
  rw [h1, h1']
  congr 1
  apply List.ext_getElem (by omega)
  intro k hk hk'
  funext m
  rw [h3 k (by rw [List.length_range]; omega) hk m, h3' k (by omega) hk' m, if_pos (List.mem_range.2 (by omega))]
  simp

/-- C30 fails after culling: for every increasing set of controlled actuators other than `0 … Nele-1`, and at least one mode, the parallel
computation raises `IndexError` (while by `C30_serial` the serial one succeeds). -/
theorem C30_culled_violated (actEle : List ℕ) (hs : actEle.Pairwise (· < ·)) (hne : actEle ≠ List.range actEle.length) (hM : 0 < M)
    (col : Fin M → ℕ → P → ℂ) : parallel actEle.length actEle col = .error .indexError := by
  -- some actuator index is out of range
  have hbig : ∃ i ∈ actEle, actEle.length ≤ i := by
    by_contra hcon
    push Not at hcon
    apply hne
    have hlow : ∀ (k : ℕ) (hk : k < actEle.length), k ≤ actEle[k] := by
      intro k
      induction k with
      | zero => intro _; exact Nat.zero_le _
      | succ k ih =>
        intro hk
        have := List.pairwise_iff_getElem.1 hs k (k + 1) (by omega) hk (by omega)
        have := ih (by omega)
        omega
    have hup : ∀ (d k : ℕ) (hk : k < actEle.length), k + d + 1 = actEle.length → actEle[k] + d < actEle.length := by
      intro d
      induction d with
      | zero => intro k hk _; exact hcon _ (List.getElem_mem hk)
      | succ d ih =>
        intro k hk hd
        have h1 := ih (k + 1) (by omega) (by omega)
        have := List.pairwise_iff_getElem.1 hs k (k + 1) hk (by omega) (by omega)
        omega
    apply List.ext_getElem (by simp)
    intro k hk hk'
    rw [List.getElem_range]
    have h1 := hlow k hk
    have h2 := hup (actEle.length - 1 - k) k hk (by omega)
    omega
  obtain ⟨i, hi, hbig⟩ := hbig
  -- the writes before it succeed, this one fails
  rw [parallel_form]
  have key : ∀ (ws : List (ℕ × Fin M)) (val : ℕ × Fin M → P → ℂ) (G : List (Col M P)),
      (∃ w ∈ ws, G.length ≤ w.1) → ws.foldlM (fun G w => setCol G w.1 w.2 (val w)) G = .error .indexError := by
    intro ws val
    induction ws with
    | nil => rintro G ⟨w, hw, -⟩; simp at hw
    | cons w ws ih =>
      rintro G ⟨w', hw', hle⟩
      rw [List.foldlM_cons]
      by_cases h : w.1 < G.length
      · rw [setCol_ok G w.1 w.2 (val w) h]
        change ws.foldlM _ (G.set w.1 (Function.update G[w.1] w.2 (val w))) = _
        apply ih
        rcases List.mem_cons.1 hw' with rfl | hw''
        · omega
        · exact ⟨w', hw'', by rw [List.length_set]; exact hle⟩
      · rw [setCol_err G w.1 w.2 (val w) (by omega)]; rfl
  apply key
  refine ⟨(i, ⟨0, hM⟩), ?_, by simpa [zeros] using hbig⟩
  simp only [List.mem_flatMap, List.mem_map]
  exact ⟨i, hi, ⟨0, hM⟩, List.mem_finRange _, rfl⟩

/-- C30 fails also for a DM which is not in `dm_ind`: the serial Jacobian is zero, the parallel one holds the actuators' responses. -/
theorem C30_dm_ind_violated (n : ℕ) (col : Fin M → ℕ → P → ℂ) (k : ℕ) (hk : k < n) (m : Fin M) (hc : col m k ≠ fun _ => 0) :
    serial false n (List.range n) col ≠ parallel n (List.range n) col := by
  obtain ⟨G', h1', h2', h3'⟩ := C30_parallel n (List.range n) col (fun i hi => List.mem_range.1 hi)
  rw [h1']
  unfold serial
  rw [if_neg (by simp)]
  intro h
  have h := (Except.ok.inj h).symm
  have h4 := h3' k hk (by omega) m
  rw [if_pos (List.mem_range.2 hk)] at h4
  apply hc
  rw [← h4]
  subst h
  unfold zeros; rw [List.getElem_replicate]

/-- the culled set `{1, 3}` of four actuators meets the hypotheses of `C30_culled_violated` -/
example : ([1, 3] : List ℕ).Pairwise (· < ·) ∧ ([1, 3] : List ℕ) ≠ List.range ([1, 3] : List ℕ).length := by decide

/-! ## C31 -/

theorem positions_absent (actEle : List ℕ) (i : ℕ) (h : i ∉ actEle) : positions actEle i = [] := by
  unfold positions
  rw [List.map_eq_nil_iff, List.filter_eq_nil_iff]
  rintro ⟨a, k⟩ hak
  have := (List.mem_zipIdx hak)
  simp only [decide_eq_true_eq]
  rintro rfl
  exact h (List.fst_mem_of_mem_zipIdx hak)

theorem positions_present (actEle : List ℕ) (hn : actEle.Nodup) (k : ℕ) (hk : k < actEle.length) :
    positions actEle actEle[k] = [k] := by
  unfold positions
  have hz : actEle.zipIdx = (List.range actEle.length).map fun k => (actEle.getD k 0, k) := by
    apply List.ext_getElem
    · simp
    · intro k h1 h2
      have hk : k < actEle.length := by simpa using h1
      simp [hk]
  rw [hz, List.filter_map, List.map_map]
  have h2 : (List.range actEle.length).filter ((fun p : ℕ × ℕ => decide (p.1 = actEle[k])) ∘ fun k => (actEle.getD k 0, k))
      = (List.range actEle.length).filter (fun j => j = k) := by
    apply List.filter_congr
    intro j hj
    have hj := List.mem_range.1 hj
    simp only [Function.comp, List.getD_eq_getElem?_getD, List.getElem?_eq_getElem hj, Option.getD_some, decide_eq_decide]
    exact ⟨fun h => (hn.getElem_inj_iff).1 h, fun h => by subst h; rfl⟩
  rw [h2]
  have h3 : (List.range actEle.length).filter (fun j => j = k) = [k] := by
    have hnd : ((List.range actEle.length).filter (fun j => decide (j = k))).Nodup := List.nodup_range.filter _
    have hm : ∀ j, j ∈ (List.range actEle.length).filter (fun j => decide (j = k)) ↔ j = k := by
      intro j; simp only [List.mem_filter, List.mem_range, decide_eq_true_eq]
      exact ⟨fun h => h.2, fun h => ⟨h ▸ hk, h⟩⟩
    have hp : ((List.range actEle.length).filter (fun j => decide (j = k))).Perm [k] :=
      (List.perm_ext_iff_of_nodup hnd (by simp)).2 (fun j => by rw [hm]; simp)
    exact List.perm_singleton.1 hp
  rw [h3]; rfl

/-- One tied pair with both actuators controlled (at positions `a ≠ b`): column `a` becomes the sum, column `b` becomes zero, all other
columns are unchanged. -/
theorem tiePair_both (actEle : List ℕ) (hn : actEle.Nodup) (G : List (Col M P)) (hG : G.length = actEle.length) (a b : ℕ)
    (ha : a < actEle.length) (hb : b < actEle.length) (hab : a ≠ b) :
    tiePair actEle G (actEle[a], actEle[b]) =
      .ok ((G.set a (fun m p => G[a] m p + G[b] m p)).set b (fun _ _ => 0)) := by
  have hbG : b < G.length := by omega
  have haG : a < G.length := by omega
  unfold tiePair
  simp only [positions_present actEle hn a ha, positions_present actEle hn b hb]
  simp [List.getElem?_eq_getElem haG, List.getElem?_eq_getElem hbG]

/-- the command vector in which the follower's entry is replaced by the leader's -/
def copyLeader (u : List ℝ) (a b : ℕ) : List ℝ := u.set b (u.getD a 0)

theorem response_eq_sum (G : List (Col M P)) (u : List ℝ) (h : G.length = u.length) (m : Fin M) (p : P) :
    response G u m p = ∑ k ∈ Finset.range G.length, G.getD k (fun _ _ => 0) m p * ((u.getD k 0 : ℝ) : ℂ) := by
  unfold response
  induction G generalizing u with
  | nil => simp
  | cons c G ih =>
    cases u with
    | nil => simp at h
    | cons x u =>
      simp only [List.length_cons, Nat.add_right_cancel_iff] at h
      rw [List.zipWith_cons_cons, List.sum_cons, ih u h, List.length_cons, Finset.sum_range_succ']
      simp [add_comm]

/-- One tie: the response of the merged Jacobian to `u` is the response of the old one to `u` with the follower copied from the leader. -/
theorem tie_response (actEle : List ℕ) (hn : actEle.Nodup) (G : List (Col M P)) (hG : G.length = actEle.length) (a b : ℕ)
    (ha : a < actEle.length) (hb : b < actEle.length) (hab : a ≠ b) (u : List ℝ) (hu : u.length = actEle.length) :
    ∃ G', tiePair actEle G (actEle[a], actEle[b]) = .ok G' ∧ G'.length = actEle.length ∧
      ∀ m p, response G' u m p = response G (copyLeader u a b) m p := by
  have hbG : b < G.length := by omega
  have haG : a < G.length := by omega
  refine ⟨_, tiePair_both actEle hn G hG a b ha hb hab, by simp [hG], fun m p => ?_⟩
  rw [response_eq_sum _ _ (by simp [hG, hu]), response_eq_sum _ _ (by simp [copyLeader, hG, hu])]
  simp only [List.length_set]
  have ha' : a ∈ Finset.range G.length := Finset.mem_range.2 haG
  have hb' : b ∈ (Finset.range G.length).erase a := Finset.mem_erase.2 ⟨hab.symm, Finset.mem_range.2 hbG⟩
  rw [← Finset.add_sum_erase _ _ ha', ← Finset.add_sum_erase _ _ hb', ← Finset.add_sum_erase _ _ ha', ← Finset.add_sum_erase _ _ hb']
  have hua : a < u.length := by omega
  have hub : b < u.length := by omega
  have hrest : ∀ k ∈ ((Finset.range G.length).erase a).erase b,
      ((G.set a (fun m p => G[a] m p + G[b] m p)).set b (fun _ _ => 0)).getD k (fun _ _ => 0) m p * ((u.getD k 0 : ℝ) : ℂ)
        = G.getD k (fun _ _ => 0) m p * (((copyLeader u a b).getD k 0 : ℝ) : ℂ) := by
    intro k hk
    simp only [Finset.mem_erase, Finset.mem_range] at hk
    unfold copyLeader
    simp only [List.getD_eq_getElem?_getD]
    rw [List.getElem?_set_ne (Ne.symm hk.1), List.getElem?_set_ne (Ne.symm hk.2.1), List.getElem?_set_ne (Ne.symm hk.1)]
  rw [Finset.sum_congr rfl hrest]
  rw [← add_assoc, ← add_assoc]
  congr 1
  unfold copyLeader
  simp only [List.getD_eq_getElem?_getD]
  rw [List.getElem?_set_ne (Ne.symm hab), List.getElem?_set_self haG, List.getElem?_set_self (by simpa using hbG),
    List.getElem?_set_ne (Ne.symm hab), List.getElem?_set_self hub]
  simp [List.getElem?_eq_getElem haG, List.getElem?_eq_getElem hbG, List.getElem?_eq_getElem hua]
  ring

/-- the command actually applied by the DMs when the pairs are tied: pairs processed from the last to the first, each follower takes its
leader's value.  `ties` are pairs of positions. -/
def tiedCommand (ties : List (ℕ × ℕ)) (u : List ℝ) : List ℝ := ties.foldr (fun t u => copyLeader u t.1 t.2) u

theorem tiedCommand_length (ties : List (ℕ × ℕ)) (u : List ℝ) : (tiedCommand ties u).length = u.length := by
  induction ties with
  | nil => rfl
  | cons t ts ih =>
    change ((tiedCommand ts u).set t.2 ((tiedCommand ts u).getD t.1 0)).length = u.length
    rw [List.length_set, ih]

/-- C31. For any list of tied pairs between controlled actuators (leader ≠ follower), merging succeeds and the response of the merged
Jacobian to every command equals the response of the original Jacobian to the command in which each follower is given its leader's
value: no response is lost or counted twice. -/
theorem C31_response (actEle : List ℕ) (hn : actEle.Nodup) (ties : List (ℕ × ℕ))
    (ht : ∀ t ∈ ties, t.1 < actEle.length ∧ t.2 < actEle.length ∧ t.1 ≠ t.2)
    (G : List (Col M P)) (hG : G.length = actEle.length) :
    ∃ G', applyTies actEle (ties.map fun t => (actEle.getD t.1 0, actEle.getD t.2 0)) G = .ok G' ∧ G'.length = actEle.length ∧
      ∀ (u : List ℝ), u.length = actEle.length → ∀ m p, response G' u m p = response G (tiedCommand ties u) m p := by
  induction ties generalizing G with
  | nil => exact ⟨G, rfl, hG, fun u _ m p => rfl⟩
  | cons t ts ih =>
    obtain ⟨h1, h2, h3⟩ := ht t (by simp)
    have e := tiePair_both actEle hn G hG t.1 t.2 h1 h2 h3
    obtain ⟨G'', g1, g2, g3⟩ := ih (fun t' h' => ht t' (by simp [h']))
      ((G.set t.1 (fun m p => (G[t.1]'(by omega)) m p + (G[t.2]'(by omega)) m p)).set t.2 (fun _ _ => 0)) (by simp [hG])
    refine ⟨G'', ?_, g2, fun u hu m p => ?_⟩
    · unfold applyTies
      rw [List.map_cons, List.foldlM_cons]
      rw [List.getD_eq_getElem?_getD, List.getD_eq_getElem?_getD, List.getElem?_eq_getElem h1, List.getElem?_eq_getElem h2,
        Option.getD_some, Option.getD_some, e]
      exact g1
    · rw [g3 u hu m p]
      obtain ⟨G', r1, r2, r3⟩ := tie_response actEle hn G hG t.1 t.2 h1 h2 h3 (tiedCommand ts u) (by rw [tiedCommand_length, hu])
      rw [e] at r1
      cases r1
      exact r3 m p

/-- C31. For pairwise disjoint tied pairs, the merged columns are: leader's column plus follower's column at the leader, zero at the
follower, unchanged elsewhere. -/
theorem C31_columns (actEle : List ℕ) (hn : actEle.Nodup) (ties : List (ℕ × ℕ))
    (ht : ∀ t ∈ ties, t.1 < actEle.length ∧ t.2 < actEle.length ∧ t.1 ≠ t.2)
    (hd : ties.Pairwise fun s t => s.1 ≠ t.1 ∧ s.1 ≠ t.2 ∧ s.2 ≠ t.1 ∧ s.2 ≠ t.2)
    (G : List (Col M P)) (hG : G.length = actEle.length) :
    ∃ G', applyTies actEle (ties.map fun t => (actEle.getD t.1 0, actEle.getD t.2 0)) G = .ok G' ∧ G'.length = actEle.length ∧
      (∀ t ∈ ties, ∀ m p, G'.getD t.1 (fun _ _ => 0) m p = G.getD t.1 (fun _ _ => 0) m p + G.getD t.2 (fun _ _ => 0) m p) ∧
      (∀ t ∈ ties, G'.getD t.2 (fun _ _ => 0) = fun _ _ => 0) ∧
      (∀ k, (∀ t ∈ ties, k ≠ t.1 ∧ k ≠ t.2) → G'.getD k (fun _ _ => 0) = G.getD k (fun _ _ => 0)) := by
  induction ties generalizing G with
  | nil => exact ⟨G, rfl, hG, by simp, by simp, fun k _ => rfl⟩
  | cons t ts ih =>
    obtain ⟨h1, h2, h3⟩ := ht t (by simp)
    have e := tiePair_both actEle hn G hG t.1 t.2 h1 h2 h3
    rw [List.pairwise_cons] at hd
    have hG1 : t.1 < G.length := by omega
    have hG2 : t.2 < G.length := by omega
    obtain ⟨G'', g1, g2, g3, g4, g5⟩ := ih (fun t' h' => ht t' (by simp [h'])) hd.2
      ((G.set t.1 (fun m p => (G[t.1]'(by omega)) m p + (G[t.2]'(by omega)) m p)).set t.2 (fun _ _ => 0)) (by simp [hG])
    have old : ∀ k, k ≠ t.1 → k ≠ t.2 →
        ((G.set t.1 (fun m p => (G[t.1]'(by omega)) m p + (G[t.2]'(by omega)) m p)).set t.2 (fun _ _ => 0)).getD k (fun _ _ => 0)
          = G.getD k (fun _ _ => 0) := by
      intro k k1 k2
      simp only [List.getD_eq_getElem?_getD]
      rw [List.getElem?_set_ne (Ne.symm k2), List.getElem?_set_ne (Ne.symm k1)]
    refine ⟨G'', ?_, g2, ?_, ?_, ?_⟩
    · unfold applyTies
      rw [List.map_cons, List.foldlM_cons]
      rw [List.getD_eq_getElem?_getD, List.getD_eq_getElem?_getD, List.getElem?_eq_getElem h1, List.getElem?_eq_getElem h2,
        Option.getD_some, Option.getD_some, e]
      exact g1
    · intro s hs m p
      rcases List.mem_cons.1 hs with rfl | hs'
      · rw [g5 s.1 (fun t ht' => ⟨(hd.1 t ht').1, (hd.1 t ht').2.1⟩)]
        simp only [List.getD_eq_getElem?_getD]
        rw [List.getElem?_set_ne (Ne.symm h3), List.getElem?_set_self hG1, List.getElem?_eq_getElem hG1, List.getElem?_eq_getElem hG2]
        rfl
      · have hh := hd.1 s hs'
        rw [g3 s hs' m p, old s.1 hh.1.symm hh.2.2.1.symm, old s.2 hh.2.1.symm hh.2.2.2.symm]
    · intro s hs
      rcases List.mem_cons.1 hs with rfl | hs'
      · rw [g5 s.2 (fun t ht' => ⟨(hd.1 t ht').2.2.1, (hd.1 t ht').2.2.2⟩)]
        simp only [List.getD_eq_getElem?_getD]
        rw [List.getElem?_set_self (by simpa using hG2)]
        rfl
      · exact g4 s hs'
    · intro k hk
      rw [g5 k (fun t' h' => hk t' (by simp [h']))]
      exact old k (hk t (by simp)).1 (hk t (by simp)).2

/-- C31 fails for pairs with only one controlled member.  Leader controlled and follower not: `ValueError`.  Follower controlled and
leader not: the follower's response is deleted. -/
theorem C31_half_controlled_violated (actEle : List ℕ) (hn : actEle.Nodup) (G : List (Col M P)) (hG : G.length = actEle.length)
    (a : ℕ) (ha : a < actEle.length) (other : ℕ) (ho : other ∉ actEle) :
    tiePair actEle G (actEle[a], other) = .error .valueError ∧
    tiePair actEle G (other, actEle[a]) = .ok (G.set a fun _ _ => 0) := by
  have haG : a < G.length := by omega
  constructor
  · unfold tiePair
    simp [positions_present actEle hn a ha, positions_absent actEle other ho]
  · unfold tiePair
    simp [positions_present actEle hn a ha, positions_absent actEle other ho]

/-- two disjoint tied pairs among five controlled actuators meet the hypotheses of `C31_columns` -/
example : ([2, 3, 5, 7, 8] : List ℕ).Nodup ∧ (∀ t ∈ [(0, 1), (4, 2)], t.1 < ([2, 3, 5, 7, 8] : List ℕ).length ∧
    t.2 < ([2, 3, 5, 7, 8] : List ℕ).length ∧ t.1 ≠ t.2) ∧
    ([(0, 1), (4, 2)] : List (ℕ × ℕ)).Pairwise fun s t => s.1 ≠ t.1 ∧ s.1 ≠ t.2 ∧ s.2 ≠ t.1 ∧ s.2 ≠ t.2 := by decide

end Verif.Jac
