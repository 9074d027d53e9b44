import Verif.Model.SetupDm
import Verif.Props.Util
import Mathlib.Tactic.LinearCombination
import Mathlib.Tactic.FieldSimp

/-!
# Property C142: set-up of DMs and input fields, end of a run
-/

namespace Verif.SetupDm
open Verif Verif.Util

/-- **C142 (sign).** The influence function is negated for a sign that begins with `-`, `n` or `m`, kept for one that begins with `+` or `p`; anything else raises. -/
theorem C142_sign (c : Char) (l : List Char) :
    negated (String.ofList (c :: l)) = if c = '-' ∨ c = 'n' ∨ c = 'm' then .ok true else if c = '+' ∨ c = 'p' then .ok false else .error .valueError := by
  unfold negated
  simp

/-- the fold over the dead actuators, for indices in range -/
theorem dead_fold (n : ℕ) (dead : List ℤ) (h : ∀ i ∈ dead, 0 ≤ i ∧ i < n) (m : ℕ → Bool) :
    ∃ m', dead.foldlM (fun (m : ℕ → Bool) i => (pyIndex n i).map fun k => Function.update m k true) m = .ok m' ∧
      ∀ k, m' k = true ↔ (m k = true ∨ (k : ℤ) ∈ dead) := by
  induction dead generalizing m with
  | nil => exact ⟨m, rfl, by simp⟩
  | cons i l ih =>
    have hi := h i (by simp)
    obtain ⟨m', h1, h2⟩ := ih (fun j hj => h j (by simp [hj])) (Function.update m i.toNat true)
    refine ⟨m', ?_, ?_⟩
    · rw [List.foldlM_cons]
      have : pyIndex n i = .ok i.toNat := by unfold pyIndex; rw [if_pos hi]
      rw [this]
      exact h1
    · intro k
      rw [h2 k]
      by_cases hk : k = i.toNat
      · subst hk
        have : (i.toNat : ℤ) = i := Int.toNat_of_nonneg hi.1
        simp [this]
      · rw [Function.update_of_ne hk]
        have : (k : ℤ) ≠ i := by intro e; apply hk; omega
        simp [this]

/-- **C142 (dead actuators).** For dead actuators given by their numbers (rows one after the other), the map by which commands and the gradient of AD-EFC are set to zero
marks exactly those actuators, and it is the same actuators whose columns of the Jacobian are zero. -/
theorem C142_dead (nact : ℕ) (dead : List ℤ) (h : ∀ i ∈ dead, 0 ≤ i ∧ i < (nact * nact : ℕ)) :
    ∃ m, deadMap nact dead = .ok m ∧ ∀ r c, c < nact → (m r c = true ↔ ((r * nact + c : ℕ) : ℤ) ∈ dead) ∧ m r c = deadColumn dead (r * nact + c) := by
  obtain ⟨m', h1, h2⟩ := dead_fold (nact * nact) dead h (fun _ => false)
  refine ⟨fun r c => m' (r * nact + c), ?_, ?_⟩
  · unfold deadMap; rw [h1]; rfl
  · intro r c _
    have := h2 (r * nact + c)
    simp only [Bool.false_eq_true, false_or] at this
    refine ⟨this, ?_⟩
    unfold deadColumn
    rw [Bool.eq_iff_iff, decide_eq_true_iff]
    exact this

/-- **C142 (dead actuators counted from the end, violated).** A negative number marks an actuator whose column of the Jacobian is not zero: the controller goes on using an
actuator that does not move. -/
theorem C142_dead_negative_violated (nact : ℕ) (i : ℤ) (h1 : -((nact * nact : ℕ) : ℤ) ≤ i) (h2 : i < 0) :
    ∃ m, deadMap nact [i] = .ok m ∧ m ((i + (nact * nact : ℕ)).toNat / nact) ((i + (nact * nact : ℕ)).toNat % nact) = true ∧ ∀ iact, deadColumn [i] iact = false := by
  refine ⟨fun r c => Function.update (fun _ => false) (i + (nact * nact : ℕ)).toNat true (r * nact + c), ?_, ?_, ?_⟩
  · unfold deadMap
    rw [List.foldlM_cons]
    have : pyIndex (nact * nact) i = .ok (i + (nact * nact : ℕ)).toNat := by
      unfold pyIndex; rw [if_neg (by omega), if_pos ⟨h1, h2⟩]
    rw [this]
    rfl
  · have : (i + (nact * nact : ℕ)).toNat / nact * nact + (i + (nact * nact : ℕ)).toNat % nact = (i + (nact * nact : ℕ)).toNat := Nat.div_add_mod' _ _
    beta_reduce
    rw [this]
    simp
  · intro iact
    unfold deadColumn
    rw [decide_eq_false_iff_not]
    simp
    omega

/-- **C142 (no such actuator).** A number beyond the last actuator raises IndexError. -/
theorem C142_dead_range (nact : ℕ) (dead : List ℤ) (i : ℤ) (l : List ℤ) (h : ∀ j ∈ dead, 0 ≤ j ∧ j < (nact * nact : ℕ)) (hi : ((nact * nact : ℕ) : ℤ) ≤ i) :
    deadMap nact (dead ++ i :: l) = .error .indexError := by
  obtain ⟨m', h1, -⟩ := dead_fold (nact * nact) dead h (fun _ => false)
  unfold deadMap
  rw [List.foldlM_append, h1]
  have : pyIndex (nact * nact) i = .error .indexError := by
    unfold pyIndex; rw [if_neg (by omega), if_neg (by omega)]
  change (((i :: l).foldlM (fun (m : ℕ → Bool) i => (pyIndex (nact * nact) i).map fun k => Function.update m k true) m') : Except PyErr (ℕ → Bool)).map _ = _
  rw [List.foldlM_cons, this]
  rfl

/-- **C142 (start).** Without a command given the DMs start from zero, otherwise from the given command. -/
theorem C142_start (nact : ℕ) (v : ℕ → ℕ → ℝ) (r c : ℕ) : startCommand nact none r c = 0 ∧ startCommand nact (some v) r c = v r c := ⟨rfl, rfl⟩

/-- **C142 (stops).** A stop at DM2 can always be made, one at DM1 only if the user has given `mp.dm1` an object `full`. -/
theorem C142_stops (flag1 flag2 : Bool) (given1 given2 : List String) :
    ((∃ r, genDmStops flag1 flag2 given1 given2 = .ok r) ↔ (flag1 = true → "full" ∈ given1)) ∧
    (flag1 = true → "full" ∉ given1 → genDmStops flag1 flag2 given1 given2 = .error .attributeError) := by
  have hf : "full" ∉ setupAttrs := by decide
  have hc : "compact" ∈ setupAttrs := by decide
  have h2 : needFull (given2 ++ setupAttrs ++ ["full", "compact"]) = .ok () := by unfold needFull; simp
  have h1 : needFull (given1 ++ setupAttrs) = if "full" ∈ given1 then .ok () else .error .attributeError := by unfold needFull; simp [hf, hc]
  unfold genDmStops
  dsimp only
  rw [h1, h2]
  cases flag1 <;> cases flag2 <;> by_cases hg : "full" ∈ given1 <;> simp [hg, Except.bind, Except.map]

/-- **C142 (input fields of the compact model).** Without fields given, there is one field in each subband, one at every pixel. -/
theorem C142_fields_compact (narr ns : ℕ) :
    ∃ E, initialEcompact none narr ns = .ok E ∧ E.fields.length = ns ∧ ∀ l ∈ E.fields, l = [Img.full narr narr (1 : ℂ)] := by
  refine ⟨_, rfl, by simp, ?_⟩
  intro l hl
  obtain ⟨-, rfl⟩ := List.mem_replicate.mp hl
  rfl

/-- **C142 (input fields).** Without fields given, the input field is one at every pixel, wavelength and subband. -/
theorem C142_fields_default (narr nw ns : ℕ) :
    ∃ E, initialE none narr nw ns = .ok E ∧ E.fields.length = ns ∧ ∀ l ∈ E.fields, l.length = nw ∧ ∀ A ∈ l, A = Img.full narr narr (1 : ℂ) := by
  refine ⟨_, rfl, by simp, ?_⟩
  intro l hl
  obtain ⟨-, rfl⟩ := List.mem_replicate.mp hl
  exact ⟨by simp, fun A hA => (List.mem_replicate.mp hA).2⟩

/-- a list of results, all of them successful -/
theorem mapM_ok {α β : Type*} (f : α → Except PyErr β) (g : α → β) (l : List α) (h : ∀ a ∈ l, f a = .ok (g a)) : l.mapM f = .ok (l.map g) := by
  induction l with
  | nil => rfl
  | cons a l ih =>
    rw [List.mapM_cons, h a (by simp), ih fun b hb => h b (by simp [hb])]
    rfl

/-- **C142 (fields of another size).** Fields given with another number of rows are centred in, or cropped to, arrays of the size of the pupil, zero where the given field
does not reach, for every wavelength of every subband. -/
theorem C142_fields_resized (E : Stack) (narr nw ns : ℕ) (h0 : 0 < narr) (hE : E.h ≠ narr) (g : ℕ → ℕ → Img ℂ)
    (hs : ∀ si < ns, ∃ l, E.fields[si]? = some l ∧ ∀ wi < nw, l[wi]? = some (g si wi)) :
    ∃ E', initialE (some E) narr nw ns = .ok E' ∧ E'.h = narr ∧ E'.w = narr ∧ ∀ si < ns, ∃ l, E'.fields[si]? = some l ∧ ∀ wi < nw, ∃ B, l[wi]? = some B ∧ B.h = narr ∧ B.w = narr ∧
      ∀ i j : ℤ, 0 ≤ i → i < narr → 0 ≤ j → j < narr → B.get? i j = some (((g si wi).get? ((g si wi).h / 2 + (i - narr / 2)) ((g si wi).w / 2 + (j - narr / 2))).getD 0) := by
  have hp : ∀ A : Img ℂ, ∃ B, padCrop A (.one (.int narr)) 0 = .ok B ∧ B.h = narr ∧ B.w = narr ∧
      ∀ i j : ℤ, 0 ≤ i → i < narr → 0 ≤ j → j < narr → B.get? i j = some ((A.get? (A.h / 2 + (i - narr / 2)) (A.w / 2 + (j - narr / 2))).getD 0) := by
    intro A
    rw [(C01_pad_crop_sizes A 0).1 narr]
    exact C01_pad_crop A narr narr h0 h0 0
  choose P hP using hp
  have hrow : ∀ si ∈ List.range ns, ((List.range nw).mapM fun wi => (at_ E.fields si).bind fun l => (at_ l wi).bind fun A => padCrop A (.one (.int narr)) 0) =
      .ok ((List.range nw).map fun wi => P (g si wi)) := by
    intro si hsi
    obtain ⟨l, hl, hw⟩ := hs si (List.mem_range.mp hsi)
    refine mapM_ok _ _ _ fun wi hwi => ?_
    have e1 : at_ E.fields si = .ok l := by unfold at_; rw [hl]
    have e2 : at_ l wi = .ok (g si wi) := by unfold at_; rw [hw wi (List.mem_range.mp hwi)]
    rw [e1]
    change (at_ l wi).bind _ = _
    rw [e2]
    exact (hP (g si wi)).1
  refine ⟨⟨narr, narr, (List.range ns).map fun si => (List.range nw).map fun wi => P (g si wi)⟩, ?_, rfl, rfl, ?_⟩
  · unfold initialE
    dsimp only
    rw [if_pos hE, mapM_ok _ _ _ hrow]
    rfl
  · intro si hsi
    refine ⟨(List.range nw).map fun wi => P (g si wi), ?_, ?_⟩
    · simp [hsi]
    · intro wi hwi
      refine ⟨P (g si wi), by simp [hwi], (hP _).2.1, (hP _).2.2.1, (hP _).2.2.2⟩

/-- a list of results, one of them a failure, all failures alike -/
theorem mapM_error {α β : Type*} (f : α → Except PyErr β) (e : PyErr) (l : List α) (h : ∀ a ∈ l, (∃ b, f a = .ok b) ∨ f a = .error e) (hx : ∃ a ∈ l, f a = .error e) :
    l.mapM f = .error e := by
  induction l with
  | nil => obtain ⟨a, ha, -⟩ := hx; simp at ha
  | cons a l ih =>
    rw [List.mapM_cons]
    rcases h a (by simp) with ⟨b, hb⟩ | hb
    · obtain ⟨c, hc, hce⟩ := hx
      rcases List.mem_cons.mp hc with rfl | hc
      · rw [hb] at hce; cases hce
      · rw [hb, ih (fun d hd => h d (by simp [hd])) ⟨c, hc, hce⟩]; rfl
    · rw [hb]; rfl

/-- a list of results with failures of one kind only -/
theorem mapM_cases {α β : Type*} (f : α → Except PyErr β) (e : PyErr) (l : List α) (h : ∀ a ∈ l, (∃ b, f a = .ok b) ∨ f a = .error e) : (∃ b, l.mapM f = .ok b) ∨ l.mapM f = .error e := by
  by_cases hx : ∃ a ∈ l, f a = .error e
  · exact .inr (mapM_error f e l h hx)
  · left
    push Not at hx
    have : ∀ a : {a // a ∈ l}, ∃ b, f a = .ok b := fun a => (h a a.2).resolve_right (hx a a.2)
    choose g hg using this
    classical
    by_cases hl : l = []
    · subst hl; exact ⟨[], rfl⟩
    · obtain ⟨a0, ha0⟩ := List.exists_mem_of_ne_nil l hl
      exact ⟨_, mapM_ok f (fun a => if ha : a ∈ l then g ⟨a, ha⟩ else g ⟨a0, ha0⟩) l fun a ha => by simp only [dif_pos ha]; exact hg ⟨a, ha⟩⟩

/-- **C142 (missing wavelengths).** If the field of any wavelength of any subband that is asked for is missing, the call raises IndexError. -/
theorem C142_fields_missing (E : Stack) (narr nw ns : ℕ) (h0 : 0 < narr) (hE : E.h ≠ narr) (si wi : ℕ) (hs : si < ns) (hw : wi < nw)
    (hm : ∀ l, E.fields[si]? = some l → l[wi]? = none) : initialE (some E) narr nw ns = .error .indexError := by
  unfold initialE
  dsimp only
  rw [if_pos hE]
  have hp : ∀ A : Img ℂ, ∃ B, padCrop A (.one (.int narr)) 0 = .ok B := by
    intro A
    rw [(C01_pad_crop_sizes A 0).1 narr]
    exact (C01_pad_crop A narr narr h0 h0 0).imp fun B hB => hB.1
  have hc : ∀ s w, (∃ B, ((at_ E.fields s).bind fun l => (at_ l w).bind fun A => padCrop A (.one (.int narr)) 0) = .ok B) ∨
      ((at_ E.fields s).bind fun l => (at_ l w).bind fun A => padCrop A (.one (.int narr)) 0) = .error .indexError := by
    intro s w
    unfold at_
    rcases E.fields[s]? with _ | l
    · right; rfl
    · rcases h : l[w]? with _ | A
      · right; simp only [Except.bind, h]
      · left; simp only [Except.bind, h]; exact hp A
  have hrow : ∀ s, (∃ B, ((List.range nw).mapM fun w => (at_ E.fields s).bind fun l => (at_ l w).bind fun A => padCrop A (.one (.int narr)) 0) = .ok B) ∨
      ((List.range nw).mapM fun w => (at_ E.fields s).bind fun l => (at_ l w).bind fun A => padCrop A (.one (.int narr)) 0) = .error .indexError :=
    fun s => mapM_cases _ _ _ fun w _ => hc s w
  have hbad : ((List.range nw).mapM fun w => (at_ E.fields si).bind fun l => (at_ l w).bind fun A => padCrop A (.one (.int narr)) 0) = .error .indexError := by
    refine mapM_error _ _ _ (fun w _ => hc si w) ⟨wi, List.mem_range.mpr hw, ?_⟩
    unfold at_
    rcases h : E.fields[si]? with _ | l
    · rfl
    · simp only [Except.bind, hm l h]
  rw [mapM_error _ _ _ (fun s _ => hrow s) ⟨si, List.mem_range.mpr hs, hbad⟩]
  rfl

/-- **C142 (unchecked fields, violated).** Fields with the right number of rows are taken as they are, whatever the number of columns, subbands and wavelengths. -/
theorem C142_fields_unchecked (E : Stack) (nw ns : ℕ) : initialE (some E) E.h nw ns = .ok E := by
  unfold initialE
  simp

/-- **C142 (Lyot plane).** The coordinates in the Lyot plane are those of an array of `narr` samples of width `dx` centred on pixel `narr/2`, or between the two
middle pixels. -/
theorem C142_lyot (c : Centering) (narr : ℕ) (dx : ℝ) (k : ℕ) (hk : k < narr) (h2 : 2 ≤ narr) :
    (lyotXs c narr dx)[k]? = some (match c with | .pixel => ((k : ℝ) - narr / 2) * dx | .interpixel => ((k : ℝ) - ((narr : ℝ) - 1) / 2) * dx) := by
  have h1 : narr ≠ 1 := by omega
  have hne : (narr : ℝ) - 1 ≠ 0 := by
    have : (2 : ℝ) ≤ narr := by exact_mod_cast h2
    intro e; linarith
  have hr : (List.range narr)[k]? = some k := by simp [hk]
  unfold lyotXs Setup.linspace
  cases c
  · simp only [List.map_map, List.getElem?_map, hr, Option.map_some, Function.comp, if_neg h1]
    congr 1
    field_simp
    ring
  · simp only [List.map_map, List.getElem?_map, hr, Option.map_some, Function.comp, if_neg h1]
    congr 1
    field_simp
    ring

/-- **C142 (end of a run).** The results are always written to the snippet file before anything else can fail; asking for the workspace (`flagSaveWS`) ends the run with
UnboundLocalError and writes no workspace. -/
theorem C142_finish (saveWS : Bool) : (finish saveWS).1 = [.snippet] ∧ ((finish saveWS).2 = .ok () ↔ saveWS = false) ∧ (saveWS = true → (finish saveWS).2 = .error .unboundLocal) := by
  cases saveWS <;> decide

/-- three dead actuators of a DM with 48 actuators across -/
example : ∃ m, deadMap 48 [0, 49, 2303] = .ok m ∧ m 1 1 = true ∧ m 47 47 = true ∧ m 1 2 = false := by
  obtain ⟨m, h1, h2⟩ := C142_dead 48 [0, 49, 2303] (by decide)
  refine ⟨m, h1, ?_, ?_, ?_⟩
  · rw [(h2 1 1 (by norm_num)).1]; decide
  · rw [(h2 47 47 (by norm_num)).1]; decide
  · rw [Bool.eq_false_iff, Ne, (h2 1 2 (by norm_num)).1]; decide

/-- one field of three by three pixels for a pupil of four by four -/
example : ∃ E', initialE (some ⟨3, 3, [[Img.full 3 3 2]]⟩) 4 1 1 = .ok E' ∧ E'.h = 4 := by
  obtain ⟨E', h1, h2, -⟩ := C142_fields_resized ⟨3, 3, [[Img.full 3 3 2]]⟩ 4 1 1 (by norm_num) (by decide) (fun _ _ => Img.full 3 3 2) (by
    intro si hsi
    obtain rfl : si = 0 := by omega
    refine ⟨[Img.full 3 3 2], rfl, ?_⟩
    intro wi hwi
    obtain rfl : wi = 0 := by omega
    rfl)
  exact ⟨E', h1, h2⟩

end Verif.SetupDm
