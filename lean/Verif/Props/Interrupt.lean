import Verif.Model.Interrupt
import Mathlib.Tactic.Linarith
import Mathlib.Tactic.Abel
import Mathlib.Tactic.Ring

/-!
# C144: calls that are interrupted

For every behaviour of the camera and of the models, so for every point at which an evaluation raises: what is left in `mp`, and what a second call makes of it.
-/

namespace Verif.Interrupt
open Verif

/-! ## Rules for calls -/

/-- After `m` from a state with `P`: `Q` when it returns, `R` when it raises. -/
def Tri {σ α : Type} (P : σ → Prop) (m : Py σ α) (Q : α → σ → Prop) (R : PyErr → σ → Prop) : Prop :=
  ∀ s, P s → (∀ a s', m s = (.ok a, s') → Q a s') ∧ ∀ e s', m s = (.error e, s') → R e s'

section
variable {σ α β : Type} {P : σ → Prop} {R : PyErr → σ → Prop}

theorem bind_ok {m : Py σ α} {f : α → Py σ β} {s s' : σ} {a : α} (h : m s = (.ok a, s')) : (m >>= f) s = f a s' := by
  show Py.bind m f s = _
  unfold Py.bind
  rw [h]

theorem bind_error {m : Py σ α} {f : α → Py σ β} {s s' : σ} {e : PyErr} (h : m s = (.error e, s')) : (m >>= f) s = (.error e, s') := by
  show Py.bind m f s = _
  unfold Py.bind
  rw [h]

theorem tri_bind {m : Py σ α} {f : α → Py σ β} {Q : α → σ → Prop} {Q' : β → σ → Prop} (h1 : Tri P m Q R) (h2 : ∀ a, Tri (Q a) (f a) Q' R) : Tri P (m >>= f) Q' R := by
  intro s hs
  obtain ⟨g1, g2⟩ := h1 s hs
  rcases hm : m s with ⟨r, s1⟩
  cases r with
  | ok a =>
    rw [bind_ok hm]
    exact h2 a s1 (g1 a s1 hm)
  | error e =>
    rw [bind_error hm]
    refine ⟨fun a s' h => (by cases h), fun e' s' h => ?_⟩
    cases h
    exact g2 e s1 hm

theorem tri_set {f : σ → σ} {Q : Unit → σ → Prop} (h : ∀ s, P s → Q () (f s)) : Tri P (Py.set f) Q R := by
  intro s hs
  refine ⟨fun a s' e => ?_, fun e s' h => by cases h⟩
  cases e
  exact h s hs

theorem tri_ret {a : α} {Q : α → σ → Prop} (h : ∀ s, P s → Q a s) : Tri P (pure a : Py σ α) Q R := by
  intro s hs
  refine ⟨fun a s' e => ?_, fun e s' h => by cases h⟩
  cases e
  exact h s hs

theorem tri_lift {r : Except PyErr α} {Q : α → σ → Prop} (h : ∀ s a, P s → r = .ok a → Q a s) (h' : ∀ s e, P s → r = .error e → R e s) : Tri P (Py.lift r) Q R := by
  intro s hs
  refine ⟨fun a s' e => ?_, fun e s' he => ?_⟩
  · have := congrArg Prod.fst e
    have h2 : s = s' := congrArg Prod.snd e
    exact h2 ▸ h s a hs this
  · have := congrArg Prod.fst he
    have h2 : s = s' := congrArg Prod.snd he
    exact h2 ▸ h' s e hs this

theorem tri_weaken {m : Py σ α} {P' : σ → Prop} {Q Q' : α → σ → Prop} (h : Tri P m Q R) (hp : ∀ s, P' s → P s) (hq : ∀ a s, Q a s → Q' a s) : Tri P' m Q' R := fun s hs =>
  ⟨fun a s' e => hq a s' ((h s (hp s hs)).1 a s' e), (h s (hp s hs)).2⟩

theorem tri_each {f : α → Py σ β} {B : β → Prop} (l : List α) (h : ∀ x, Tri P (f x) (fun b s => P s ∧ B b) R) : Tri P (Py.each f l) (fun bs s => P s ∧ ∀ b ∈ bs, B b) R := by
  induction l with
  | nil => exact tri_ret fun s hs => ⟨hs, by simp⟩
  | cons x l ih =>
    refine tri_bind (h x) fun b => ?_
    refine tri_bind (tri_weaken (P' := fun s => P s ∧ B b) (Q' := fun bs s => (P s ∧ B b) ∧ ∀ b ∈ bs, B b) (Q := fun bs s => (P s ∧ ∀ b ∈ bs, B b) ∧ B b) ?_ (fun s h => h) ?_) fun bs => ?_
    · intro s hs
      exact ⟨fun a s' e => ⟨(ih s hs.1).1 a s' e, hs.2⟩, (ih s hs.1).2⟩
    · exact fun bs s h => ⟨⟨h.1.1, h.2⟩, h.1.2⟩
    · exact tri_ret fun s hs => ⟨hs.1.1, fun b' hb' => by
        rcases List.mem_cons.mp hb' with e | e
        · exact e ▸ hs.1.2
        · exact hs.2 b' e⟩

end

section
variable {V E I : Type} [AddCommGroup V]

omit [AddCommGroup V] in
theorem tri_call {P : St V E → Prop} {R : PyErr → St V E → Prop} {x : Eval V E I} (h : ∀ s env, P s → P { s with env := env })
    (h' : ∀ s e env, P s → (x s.v s.ind s.env) = (.error e, env) → R e { s with env := env }) : Tri P x.call (fun _ s => P s) R := by
  intro s hs
  refine ⟨fun a s' e => ?_, fun e s' he => ?_⟩
  · have h2 : { s with env := (x s.v s.ind s.env).2 } = s' := congrArg Prod.snd e
    exact h2 ▸ h s _ hs
  · have h2 : { s with env := (x s.v s.ind s.env).2 } = s' := congrArg Prod.snd he
    have h1 : (x s.v s.ind s.env).1 = .error e := congrArg Prod.fst he
    rw [← h2]
    exact h' s e _ hs (by rw [← h1])

/-! ## Probing -/

/-- What the commands are at any time while probing from `s0`: the probing DM has its command, or that plus one of the probes; the others have theirs. -/
def Probing.Commands (c : Probing V E I) (s0 : St V E) (v : ℕ → V) : Prop :=
  (v c.which = s0.v c.which ∨ ∃ star I0 k p, c.probe star I0 k = .ok p ∧ v c.which = s0.v c.which + p) ∧
    ∀ d, d ≠ c.which → ((d ≠ 1 ∧ d ≠ 2) ∨ d ∈ s0.ind) → v d = s0.v d

/-- The exception `e` came from an evaluation with the commands of `s`, or from the computation of a probe. -/
def Probing.Raised (c : Probing V E I) (e : PyErr) (s : St V E) : Prop :=
  (∃ si env, c.image si s.v s.ind env = (.error e, s.env)) ∨ (∃ star si env, c.field star si s.v s.ind env = (.error e, s.env)) ∨
    (∃ star si env, c.solve star si s.v s.ind env = (.error e, s.env)) ∨ ∃ star I0 k, c.probe star I0 k = .error e

/-- While probing. -/
def Probing.Inv (c : Probing V E I) (s0 s : St V E) : Prop := s.ind = s0.ind ++ [c.which] ∧ c.Commands s0 s.v

theorem probing_core (c : Probing V E I) (hw : c.which = 1 ∨ c.which = 2) (s0 : St V E) (nom : ℕ → V) (hnom : ∀ d, d ∈ s0.ind ++ [c.which] → nom d = s0.v d) (star si : ℕ) :
    Tri (c.Inv s0) (c.subband nom star si) (fun _ s => c.Inv s0 s) (fun e s => c.Inv s0 s ∧ c.Raised e s) := by
  have hnw : nom c.which = s0.v c.which := hnom _ (by simp)
  have hno : ∀ d, (d = 1 ∨ d = 2) → ((d ≠ 1 ∧ d ≠ 2) ∨ d ∈ s0.ind) → nom d = s0.v d := by
    intro d h1 h2
    rcases h2 with h2 | h2
    · omega
    · exact hnom d (by simp [h2])
  have himg : ∀ si, Tri (c.Inv s0) (c.image si).call (fun _ s => c.Inv s0 s) (fun e s => c.Inv s0 s ∧ c.Raised e s) := fun si =>
    tri_call (fun s env h => h) fun s e env h he => ⟨h, .inl ⟨si, s.env, he⟩⟩
  have hfld : Tri (c.Inv s0) (c.field star si).call (fun _ s => c.Inv s0 s) (fun e s => c.Inv s0 s ∧ c.Raised e s) :=
    tri_call (fun s env h => h) fun s e env h he => ⟨h, .inr (.inl ⟨star, si, s.env, he⟩)⟩
  have hslv : Tri (c.Inv s0) (c.solve star si).call (fun _ s => c.Inv s0 s) (fun e s => c.Inv s0 s ∧ c.Raised e s) :=
    tri_call (fun s env h => h) fun s e env h he => ⟨h, .inr (.inr (.inl ⟨star, si, s.env, he⟩))⟩
  have hprobe : ∀ (s : St V E) (p : V) (hp : p = 0 ∨ ∃ star I0 k, c.probe star I0 k = .ok p), c.Inv s0 s →
      c.Inv s0 { s with v := fun d => if d = c.which then p + nom d else s.v d } := by
    intro s p hp hs
    refine ⟨hs.1, ?_, fun d hd hx => ?_⟩
    · simp only [if_true, hnw]
      rcases hp with rfl | ⟨st, i, k, hp⟩
      · left; rw [zero_add]
      · right; exact ⟨st, i, k, p, hp, add_comm _ _⟩
    · simp only [if_neg hd]
      exact hs.2.2 d hd hx
  unfold Probing.subband
  refine tri_bind (tri_set (Q := fun _ s => c.Inv s0 s) fun s hs => ⟨hs.1, .inl ?_, fun d hd hx => ?_⟩) fun _ => ?_
  · simp only [hw, if_true, hnw]
  · dsimp only
    by_cases h12 : d = 1 ∨ d = 2
    · rw [if_pos h12]; exact hno d h12 hx
    · rw [if_neg h12]; exact hs.2.2 d hd hx
  refine tri_bind (himg si) fun I0 => ?_
  refine tri_bind (Q := fun ps s => c.Inv s0 s ∧ ∀ p ∈ ps, ∃ star I0 k, c.probe star I0 k = .ok p) (tri_each _ fun k => ?_) fun ps => ?_
  · unfold Probing.take
    refine tri_bind (Q := fun p s => c.Inv s0 s ∧ c.probe star I0 k = .ok p) (tri_lift (fun s a hs ha => ⟨hs, ha⟩) fun s e hs he => ⟨hs, .inr (.inr (.inr ⟨star, I0, k, he⟩))⟩) fun p => ?_
    refine tri_bind (Q := fun _ s => c.Inv s0 s ∧ c.probe star I0 k = .ok p) (tri_set fun s hs => ⟨⟨hs.1.1, .inr ⟨star, I0, k, p, hs.2, ?_⟩, fun d hd hx => ?_⟩, hs.2⟩) fun _ => ?_
    · have : c.which ∈ s.ind := by rw [hs.1.1]; simp
      simp only [hw, this, and_self, if_true, hnw]
    · dsimp only
      rw [if_neg hd, add_zero]
      by_cases h12 : (d = 1 ∨ d = 2) ∧ d ∈ s.ind
      · rw [if_pos h12]; exact hno d h12.1 hx
      · rw [if_neg h12]; exact hs.1.2.2 d hd hx
    · refine tri_bind (Q := fun _ s => c.Inv s0 s ∧ c.probe star I0 k = .ok p) ?_ fun _ => tri_ret fun s hs => ⟨hs.1, star, I0, k, hs.2⟩
      exact tri_call (fun s env h => h) fun s e env h he => ⟨h.1, .inl ⟨si, s.env, he⟩⟩
  · by_cases hj : c.useJac
    · rw [if_pos hj]
      exact tri_weaken hslv (fun s h => h.1) fun _ s h => h
    · rw [if_neg hj]
      refine tri_bind (Q := fun _ s => c.Inv s0 s ∧ ∀ p ∈ ps, ∃ star I0 k, c.probe star I0 k = .ok p) (tri_set fun s hs => ⟨⟨hs.1.1, .inl ?_, fun d hd hx => ?_⟩, hs.2⟩) fun _ => ?_
      · have : c.which ∈ s.ind := by rw [hs.1.1]; simp
        simp only [hw, this, and_self, if_true, hnw]
      · dsimp only
        by_cases h12 : (d = 1 ∨ d = 2) ∧ d ∈ s.ind
        · rw [if_pos h12]; exact hno d h12.1 hx
        · rw [if_neg h12]; exact hs.1.2.2 d hd hx
      by_cases hps : ∀ p ∈ ps, ∃ star I0 k, c.probe star I0 k = .ok p
      · have hget : ∀ n, ps.getD n 0 = 0 ∨ ∃ star I0 k, c.probe star I0 k = .ok (ps.getD n 0) := by
          intro n
          rw [List.getD_eq_getElem?_getD]
          cases hn : ps[n]? with
          | none => left; rfl
          | some p => right; exact hps p (List.mem_of_getElem? hn)
        refine tri_bind (tri_weaken hfld (fun s h => h.1) fun _ s h => h) fun _ => ?_
        refine tri_bind (Q := fun _ s => c.Inv s0 s) (tri_weaken (tri_each (B := fun _ => True) _ fun k => ?_) (fun s h => h) fun _ s h => h.1) fun _ => hslv
        unfold Probing.model
        refine tri_bind (tri_set (Q := fun _ s => c.Inv s0 s) fun s hs => hprobe s _ (hget _) hs) fun _ => ?_
        refine tri_bind hfld fun _ => ?_
        refine tri_bind (tri_set (Q := fun _ s => c.Inv s0 s) fun s hs => hprobe s _ (hget _) hs) fun _ => ?_
        exact tri_weaken hfld (fun s h => h) fun _ s h => ⟨h, trivial⟩
      · intro s hs
        exact absurd hs.2 hps

theorem probing_tri (c : Probing V E I) (hw : c.which = 1 ∨ c.which = 2) (s0 : St V E) :
    Tri (fun s => s = s0) c.run (fun _ s => s.ind = s0.ind ∧ s.v c.which = s0.v c.which ∧ ∀ d, d ≠ c.which → ((d ≠ 1 ∧ d ≠ 2) ∨ d ∈ s0.ind) → s.v d = s0.v d)
      (fun e s => c.Inv s0 s ∧ c.Raised e s) := by
  unfold Probing.run
  intro s hs
  subst hs
  rw [bind_ok (show Py.get s = (.ok s, s) from rfl)]
  dsimp only
  rw [bind_ok (show Py.set _ s = (.ok (), { s with ind := s.ind ++ [c.which] }) from rfl)]
  rw [bind_ok (show Py.get _ = (.ok _, _) from rfl)]
  dsimp only
  set nom : ℕ → V := fun d => if d ∈ s.ind ++ [c.which] then s.v d else 0 with hn
  have hnom : ∀ d, d ∈ s.ind ++ [c.which] → nom d = s.v d := fun d hd => by rw [hn]; simp only [hd, if_true]
  refine tri_bind (P := c.Inv s) (Q := fun _ s' => c.Inv s s') (tri_weaken (tri_each (B := fun _ => True) _ fun star =>
      tri_weaken (tri_each (B := fun _ => True) _ fun si => tri_weaken (probing_core c hw s nom hnom star si) (fun _ h => h) fun _ _ h => ⟨h, trivial⟩) (fun _ h => h) fun _ _ h => ⟨h.1, trivial⟩)
      (fun _ h => h) fun _ _ h => h.1) (fun _ => ?_) _ ⟨rfl, .inl rfl, fun _ _ _ => rfl⟩
  refine tri_bind (Q := fun _ s' => s'.v c.which = s.v c.which ∧ ∀ d, d ≠ c.which → ((d ≠ 1 ∧ d ≠ 2) ∨ d ∈ s.ind) → s'.v d = s.v d) (tri_set fun s' hs' => ⟨?_, fun d hd hx => ?_⟩) fun _ =>
    tri_set fun s' hs' => ⟨rfl, hs'⟩
  · have : c.which ∈ s'.ind := by rw [hs'.1]; simp
    simp only [hw, this, and_self, if_true]
    exact hnom _ (by simp)
  · dsimp only
    by_cases h12 : (d = 1 ∨ d = 2) ∧ d ∈ s'.ind
    · rw [if_pos h12]
      rcases hx with h | h
      · omega
      · exact hnom d (by simp [h])
    · rw [if_neg h12]; exact hs'.2.2 d hd hx

/-- **C144 (probing, uninterrupted).** When `pairwise_probing` returns, the commands and the list of DMs are as before (except a DM that is neither probing nor in use, see C35). -/
theorem C144_probing_ok (c : Probing V E I) (hw : c.which = 1 ∨ c.which = 2) (s s' : St V E) (h : c.run s = (.ok (), s')) :
    s'.ind = s.ind ∧ s'.v c.which = s.v c.which ∧ ∀ d, d ≠ c.which → ((d ≠ 1 ∧ d ≠ 2) ∨ d ∈ s.ind) → s'.v d = s.v d :=
  (probing_tri c hw s s rfl).1 () s' h

/-- **C144 (probing, interrupted).** When an evaluation raises, wherever that is, nothing is undone: the probing DM keeps the command of that evaluation, which is the old one or the old one
plus a probe, and the probing DM stays in the list of DMs. -/
theorem C144_probing_raised (c : Probing V E I) (hw : c.which = 1 ∨ c.which = 2) (s s' : St V E) (e : PyErr) (h : c.run s = (.error e, s')) :
    s'.ind = s.ind ++ [c.which] ∧ c.Commands s s'.v ∧ c.Raised e s' :=
  let g := (probing_tri c hw s s rfl).2 e s' h
  ⟨g.1.1, g.1.2, g.2⟩

/-- **C144 (probing again).** A second call does not undo it either: when it returns, the commands are those left by the first one, and the DM that only probed is in use from then on. -/
theorem C144_probing_again (c : Probing V E I) (hw : c.which = 1 ∨ c.which = 2) (s s1 s2 : St V E) (e : PyErr) (env : E) (h : c.run s = (.error e, s1))
    (h2 : c.run { s1 with env := env } = (.ok (), s2)) : s2.v c.which = s1.v c.which ∧ s2.ind = s.ind ++ [c.which] := by
  obtain ⟨g1, g2, -⟩ := C144_probing_ok c hw _ _ h2
  exact ⟨g2, g1.trans (C144_probing_raised c hw s s1 e h).1⟩

/-- The commands during the image with the probe `p`: the other DM of the two is at its command if it is in use and at zero if not. -/
def during (which : ℕ) (s : St V E) (p : V) (d : ℕ) : V :=
  if d = which then s.v d + p else if d = 1 ∨ d = 2 then (if d ∈ s.ind then s.v d else 0) else s.v d

/-- **C144 (which probe stays).** If the unprobed image and the first `k` probed ones are taken and the next one fails, the command that stays is that of the failed image, for every `k`. -/
theorem C144_probe_stays (c : Probing V E I) (hw : c.which = 1 ∨ c.which = 2) (hst : 0 < c.stars) (hsb : 0 < c.subbands) (s : St V E) (I0 : I) (k : ℕ) (hk : k < 2 * c.pairs) (p : ℕ → V)
    (env : ℕ → E) (e : PyErr) (env' : E) (h0 : c.image 0 (during c.which s 0) (s.ind ++ [c.which]) s.env = (.ok I0, env 0)) (hp : ∀ j ≤ k, c.probe 0 I0 j = .ok (p j))
    (hi : ∀ j < k, ∃ Ij, c.image 0 (during c.which s (p j)) (s.ind ++ [c.which]) (env j) = (.ok Ij, env (j + 1)))
    (he : c.image 0 (during c.which s (p k)) (s.ind ++ [c.which]) (env k) = (.error e, env')) :
    c.run s = (.error e, ⟨during c.which s (p k), s.ind ++ [c.which], env'⟩) := by
  unfold Probing.run
  rw [bind_ok (show Py.get s = (.ok s, s) from rfl)]
  dsimp only
  rw [bind_ok (show Py.set _ s = (.ok (), { s with ind := s.ind ++ [c.which] }) from rfl)]
  rw [bind_ok (show Py.get _ = (.ok _, _) from rfl)]
  dsimp only
  set nom : ℕ → V := fun d => if d ∈ s.ind ++ [c.which] then s.v d else 0 with hn
  have hnw : nom c.which = s.v c.which := by rw [hn]; simp
  have hno : ∀ d, d ≠ c.which → nom d = if d ∈ s.ind then s.v d else 0 := fun d hd => by
    rw [hn]
    simp only [List.mem_append, List.mem_singleton, hd, or_false]
  -- the loop over the probes
  have hloop : ∀ (n : ℕ) (j : ℕ) (v : ℕ → V), j ≤ k → k < j + n → (∀ d, ¬ ((d = 1 ∨ d = 2) ∧ d ∈ s.ind ++ [c.which]) → v d = during c.which s 0 d) →
      Py.each (c.take nom 0 0 I0) ((List.range n).map (· + j)) ⟨v, s.ind ++ [c.which], env j⟩ = (.error e, ⟨during c.which s (p k), s.ind ++ [c.which], env'⟩) := by
    intro n
    induction n with
    | zero => intro j v h1 h2; omega
    | succ n ih =>
      intro j v h1 h2 hv
      rw [List.range_succ_eq_map, List.map_cons, List.map_map]
      have hset : (fun d => if (d = 1 ∨ d = 2) ∧ d ∈ s.ind ++ [c.which] then nom d + (if d = c.which then p j else 0) else v d) = during c.which s (p j) := by
        funext d
        unfold during
        by_cases hd : d = c.which
        · subst hd
          simp [hw, hnw]
        · rw [if_neg hd, add_zero, if_neg hd, hno d hd]
          by_cases h12 : d = 1 ∨ d = 2
          · rw [if_pos h12]
            by_cases hin : d ∈ s.ind
            · rw [if_pos ⟨h12, by simp [hin]⟩]
            · rw [if_neg (by simp [hin, hd]), hv d (by simp [hin, hd]), during, if_neg hd, if_pos h12]
          · rw [if_neg (fun h => h12 h.1), if_neg h12, hv d (fun h => h12 h.1), during, if_neg hd, if_neg h12]
      show (c.take nom 0 0 I0 (0 + j) >>= fun b => Py.each (c.take nom 0 0 I0) _ >>= fun bs => Py.ret (b :: bs)) _ = _
      rw [zero_add]
      have htake : ∀ (r : Except PyErr I) (x : E), c.image 0 (during c.which s (p j)) (s.ind ++ [c.which]) (env j) = (r, x) →
          c.take nom 0 0 I0 j ⟨v, s.ind ++ [c.which], env j⟩ = (r.map fun _ => p j, ⟨during c.which s (p j), s.ind ++ [c.which], x⟩) := by
        intro r x hr
        unfold Probing.take
        rw [hp j h1]
        rw [bind_ok (show Py.lift (.ok (p j)) (⟨v, s.ind ++ [c.which], env j⟩ : St V E) = (.ok (p j), _) from rfl)]
        rw [bind_ok (show Py.set _ (⟨v, s.ind ++ [c.which], env j⟩ : St V E) = (.ok (), ⟨_, s.ind ++ [c.which], env j⟩) from rfl)]
        dsimp only
        rw [hset]
        have hc : (c.image 0).call ⟨during c.which s (p j), s.ind ++ [c.which], env j⟩ = (r, ⟨during c.which s (p j), s.ind ++ [c.which], x⟩) := by
          unfold Eval.call; rw [hr]
        cases r with
        | ok a => rw [bind_ok hc]; rfl
        | error e' => rw [bind_error hc]; rfl
      rcases h1.lt_or_eq with hlt | heq
      · obtain ⟨Ij, hI⟩ := hi j hlt
        rw [bind_ok (htake _ _ hI)]
        have := ih (j + 1) (during c.which s (p j)) (by omega) (by omega) (by
          intro d hd
          have hdw : d ≠ c.which := fun h => hd ⟨h ▸ hw, by simp [h]⟩
          unfold during
          rw [if_neg hdw, if_neg hdw])
        rw [show (List.range n).map ((fun x => x + j) ∘ Nat.succ) = (List.range n).map (· + (j + 1)) from List.map_congr_left fun x _ => by simp; omega]
        exact bind_error this
      · subst heq
        exact bind_error (htake _ _ he)
  have hsub : c.subband nom 0 0 { s with ind := s.ind ++ [c.which] } = (.error e, ⟨during c.which s (p k), s.ind ++ [c.which], env'⟩) := by
    unfold Probing.subband
    rw [bind_ok (show Py.set _ ({ s with ind := s.ind ++ [c.which] } : St V E) = (.ok (), ⟨_, s.ind ++ [c.which], s.env⟩) from rfl)]
    dsimp only
    have hset : (fun d => if d = 1 ∨ d = 2 then nom d else s.v d) = during c.which s 0 := by
      funext d
      unfold during
      by_cases hd : d = c.which
      · subst hd; simp [hw, hnw]
      · rw [if_neg hd, hno d hd]
    rw [hset]
    have hc : (c.image 0).call ⟨during c.which s 0, s.ind ++ [c.which], s.env⟩ = (.ok I0, ⟨during c.which s 0, s.ind ++ [c.which], env 0⟩) := by
      unfold Eval.call; rw [h0]
    rw [bind_ok hc]
    have := hloop (2 * c.pairs) 0 (during c.which s 0) (by omega) (by omega) (fun d _ => rfl)
    rw [show (List.range (2 * c.pairs)).map (· + 0) = List.range (2 * c.pairs) by simp] at this
    exact bind_error this
  obtain ⟨a, ha⟩ : ∃ a, c.stars = a + 1 := ⟨c.stars - 1, by omega⟩
  obtain ⟨b, hb⟩ : ∃ b, c.subbands = b + 1 := ⟨c.subbands - 1, by omega⟩
  apply bind_error
  rw [ha, List.range_succ_eq_map]
  refine bind_error (m := Py.each _ _) ?_
  rw [hb, List.range_succ_eq_map]
  exact bind_error (m := c.subband nom 0 0) hsub

/-! ## Trial commands -/

/-- The commands with `d` added on the DMs in use. -/
def plus (s : St V E) (d : ℕ → V) (k : ℕ) : V := if k ∈ s.ind then s.v k + d k else s.v k

theorem trial_tri (c : Trial V E) (s0 : St V E) :
    Tri (fun s => s.v = s0.v ∧ s.ind = s0.ind) c.run (fun _ s => s.v = s0.v ∧ s.ind = s0.ind)
      (fun _ s => s.ind = s0.ind ∧ (s.v = s0.v ∨ ∃ d env env', c.solve s0.v s0.ind env = (.ok d, env') ∧ s.v = plus s0 d)) := by
  unfold Trial.run
  intro s hs
  rw [bind_ok (show Py.get s = (.ok s, s) from rfl)]
  dsimp only
  revert hs
  refine fun hs => tri_bind (P := fun s => s.v = s0.v ∧ s.ind = s0.ind) (Q := fun d s => (s.v = s0.v ∧ s.ind = s0.ind) ∧ ∃ env env', c.solve s0.v s0.ind env = (.ok d, env')) ?_ (fun d => ?_) s hs
  · intro s hs
    refine ⟨fun d s' h => ?_, fun e s' h => ?_⟩
    · have h2 : { s with env := (c.solve s.v s.ind s.env).2 } = s' := congrArg Prod.snd h
      have h1 : (c.solve s.v s.ind s.env).1 = .ok d := congrArg Prod.fst h
      rw [← h2]
      exact ⟨hs, s.env, (c.solve s.v s.ind s.env).2, by rw [← h1, ← hs.1, ← hs.2]⟩
    · have h2 : { s with env := (c.solve s.v s.ind s.env).2 } = s' := congrArg Prod.snd h
      rw [← h2]
      exact ⟨hs.2, .inl hs.1⟩
  · by_cases hd : ∃ env env', c.solve s0.v s0.ind env = (.ok d, env')
    swap
    · intro s hs
      exact absurd hs.2 hd
    have hcall : ∀ {I : Type} (x : Eval V E I) (v : ℕ → V), (v = s0.v ∨ v = plus s0 d) → Tri (fun s => s.v = v ∧ s.ind = s0.ind) x.call (fun _ s => s.v = v ∧ s.ind = s0.ind)
        (fun _ s => s.ind = s0.ind ∧ (s.v = s0.v ∨ ∃ d env env', c.solve s0.v s0.ind env = (.ok d, env') ∧ s.v = plus s0 d)) := by
      intro I x v hv
      refine tri_call (fun s env h => h) fun s e env h he => ⟨h.2, ?_⟩
      rcases hv with hv | hv
      · exact .inl (h.1.trans hv)
      · obtain ⟨env1, env2, hd⟩ := hd
        exact .inr ⟨d, env1, env2, hd, h.1.trans hv⟩
    refine tri_bind (Q := fun _ s => s.v = plus s0 d ∧ s.ind = s0.ind) (tri_set fun s' hs' => ⟨?_, hs'.1.2⟩) fun _ => ?_
    · funext k
      simp only [plus, hs'.1.2, hs'.1.1, hs.1]
    refine tri_bind (Q := fun _ (s : St V E) => s.ind = s0.ind ∧ ∀ k, k ∉ s0.ind → s.v k = s0.v k) ?_ fun _ => ?_
    · unfold Trial.score
      by_cases hm : c.useModel
      · rw [if_pos hm]
        unfold expected
        intro s1 hs1
        rw [bind_ok (show Py.get s1 = (.ok s1, s1) from rfl)]
        dsimp only
        refine tri_bind (P := fun s => s.v = plus s0 d ∧ s.ind = s0.ind) (Q := fun _ s => s.v = plus s0 d ∧ s.ind = s0.ind)
          (tri_weaken (tri_each (B := fun _ => True) _ fun si => tri_weaken (hcall (c.field si) _ (.inr rfl)) (fun _ h => h) fun _ _ h => ⟨h, trivial⟩) (fun _ h => h) fun _ _ h => h.1) (fun _ => ?_) s1 hs1
        refine tri_bind (Q := fun _ s => s.v = s0.v ∧ s.ind = s0.ind) (tri_set fun s' hs' => ⟨?_, hs'.2⟩) fun _ => ?_
        · funext k
          simp only [hs'.1, hs'.2, plus]
          split_ifs
          · exact add_sub_cancel_right _ _
          · rfl
        refine tri_bind (Q := fun _ s => s.v = s0.v ∧ s.ind = s0.ind)
          (tri_weaken (tri_each (B := fun _ => True) _ fun si => tri_weaken (hcall (c.field si) _ (.inl rfl)) (fun _ h => h) fun _ _ h => ⟨h, trivial⟩) (fun _ h => h) fun _ _ h => h.1) fun _ => ?_
        exact tri_set fun s' hs' => ⟨hs'.2, fun k hk => by simp only [hs'.2, hk, if_false, hs'.1]⟩
      · rw [if_neg hm]
        exact tri_weaken (hcall c.image _ (.inr rfl)) (fun _ h => h) fun _ s' h => ⟨h.2, fun k hk => by rw [h.1, plus, if_neg hk]⟩
    · refine tri_bind (Q := fun _ s => s.v = s0.v ∧ s.ind = s0.ind) (tri_set fun s' hs' => ⟨?_, hs'.1⟩) fun _ => tri_ret fun s' hs' => hs'
      funext k
      dsimp only
      rw [hs'.1]
      by_cases hk : k ∈ s0.ind
      · rw [if_pos hk, hs.1]
      · rw [if_neg hk, hs'.2 k hk]

/-- **C144 (grid search, uninterrupted).** When all trials return, the commands are as before. -/
theorem C144_grid_ok (trials : List (Trial V E)) (s s' : St V E) (ds) (h : grid trials s = (.ok ds, s')) : s'.v = s.v ∧ s'.ind = s.ind := by
  have key : ∀ (l : List (Trial V E)) (s1 s' : St V E) (ds), s1.v = s.v ∧ s1.ind = s.ind → grid l s1 = (.ok ds, s') → s'.v = s.v ∧ s'.ind = s.ind := by
    intro l
    induction l with
    | nil => intro s1 s' ds h1 h; cases h; exact h1
    | cons t l ih =>
      intro s1 s' ds h1 h
      have h' : (t.run >>= fun b => grid l >>= fun bs => Py.ret (b :: bs)) s1 = (.ok ds, s') := h
      rcases ht : t.run s1 with ⟨r, s2⟩
      cases r with
      | error e => rw [bind_error ht] at h'; cases h'
      | ok d =>
        rw [bind_ok ht] at h'
        have h2 := (trial_tri t s s1 h1).1 d s2 ht
        rcases hg : grid l s2 with ⟨r, s3⟩
        cases r with
        | error e => rw [bind_error hg] at h'; cases h'
        | ok bs =>
          rw [bind_ok hg] at h'
          cases h'
          exact ih s2 _ bs h2 hg
  exact key trials s s' ds ⟨rfl, rfl⟩ h

/-- **C144 (grid search, interrupted).** When an evaluation in one of the trials raises, the DMs stay at the old commands or at the trial command of that trial: the old commands plus its
solution. -/
theorem C144_grid_raised (trials : List (Trial V E)) (s s' : St V E) (e : PyErr) (h : grid trials s = (.error e, s')) :
    s'.ind = s.ind ∧ (s'.v = s.v ∨ ∃ t ∈ trials, ∃ d env env', t.solve s.v s.ind env = (.ok d, env') ∧ s'.v = plus s d) := by
  have key : ∀ (l : List (Trial V E)) (s1 : St V E), s1.v = s.v ∧ s1.ind = s.ind → grid l s1 = (.error e, s') →
      s'.ind = s.ind ∧ (s'.v = s.v ∨ ∃ t ∈ l, ∃ d env env', t.solve s.v s.ind env = (.ok d, env') ∧ s'.v = plus s d) := by
    intro l
    induction l with
    | nil => intro s1 h1 h; cases h
    | cons t l ih =>
      intro s1 h1 h
      have h' : (t.run >>= fun b => grid l >>= fun bs => Py.ret (b :: bs)) s1 = (.error e, s') := h
      rcases ht : t.run s1 with ⟨r, s2⟩
      cases r with
      | error e' =>
        rw [bind_error ht] at h'
        cases h'
        obtain ⟨g1, g2⟩ := (trial_tri t s s1 h1).2 _ _ ht
        refine ⟨g1, g2.imp_right fun ⟨d, a, b, g3, g4⟩ => ⟨t, List.mem_cons_self, d, a, b, g3, g4⟩⟩
      | ok d =>
        rw [bind_ok ht] at h'
        have h2 := (trial_tri t s s1 h1).1 d s2 ht
        rcases hg : grid l s2 with ⟨r, s3⟩
        cases r with
        | ok bs => rw [bind_ok hg] at h'; cases h'
        | error e' =>
          rw [bind_error hg] at h'
          cases h'
          obtain ⟨g1, g2⟩ := ih s2 h2 hg
          exact ⟨g1, g2.imp_right fun ⟨t, ht, x⟩ => ⟨t, List.mem_cons_of_mem _ ht, x⟩⟩
  exact key trials s ⟨rfl, rfl⟩ h

/-- **C144 (which trial stays).** A camera that fails in the first trial leaves its command on the DMs; a second search that returns leaves it there too. -/
theorem C144_trial_stays (t : Trial V E) (rest : List (Trial V E)) (hm : t.useModel = false) (s : St V E) (d : ℕ → V) (env env' : E) (e : PyErr)
    (h1 : t.solve s.v s.ind s.env = (.ok d, env)) (h2 : t.image (plus s d) s.ind env = (.error e, env')) :
    grid (t :: rest) s = (.error e, ⟨plus s d, s.ind, env'⟩) ∧
      ∀ (trials' : List (Trial V E)) (env2 : E) ds (s2 : St V E), grid trials' ⟨plus s d, s.ind, env2⟩ = (.ok ds, s2) → s2.v = plus s d := by
  constructor
  · show (t.run >>= fun b => grid rest >>= fun bs => Py.ret (b :: bs)) s = _
    apply bind_error
    unfold Trial.run
    rw [bind_ok (show Py.get s = (.ok s, s) from rfl)]
    have hs : t.solve.call s = (.ok d, { s with env := env }) := by unfold Eval.call; rw [h1]
    rw [bind_ok hs]
    rw [bind_ok (show Py.set _ ({ s with env := env } : St V E) = (.ok (), ⟨plus s d, s.ind, env⟩) from rfl)]
    unfold Trial.score
    rw [hm, if_neg (by simp)]
    have hi : t.image.call ⟨plus s d, s.ind, env⟩ = (.error e, ⟨plus s d, s.ind, env'⟩) := by unfold Eval.call; rw [h2]
    exact bind_error hi
  · intro trials' env2 ds s2 h
    exact (C144_grid_ok trials' _ s2 ds h).1

end

/-! ## The subset of actuators of `set_utu_scale_fac` -/

section
variable {E : Type}

/-- The actuators of DM `k` are those of before, or those of the subset. -/
def Sub (ind : List ℕ) (mask : ℕ → Except PyErr (List ℕ)) (s0 s : Acts E) : Prop :=
  s.scale = s0.scale ∧ ∀ k, (s.act k = s0.act k ∧ s.nele k = s0.nele k) ∨ ((k = 1 ∨ k = 2) ∧ k ∈ ind ∧ mask k = .ok (s.act k) ∧ s.nele k = (s.act k).length)

theorem choose_tri (ind : List ℕ) (mask : ℕ → Except PyErr (List ℕ)) (s0 : Acts E) (k : ℕ) (hk : k = 1 ∨ k = 2) :
    Tri (Sub ind mask s0) (choose ind mask k) (fun _ s => Sub ind mask s0 s) (fun _ s => Sub ind mask s0 s) := by
  unfold choose
  by_cases h : k ∈ ind
  · rw [if_pos h]
    refine tri_bind (Q := fun l s => Sub ind mask s0 s ∧ mask k = .ok l) (tri_lift (fun s a hs ha => ⟨hs, ha⟩) fun s e hs he => hs) fun l => tri_set fun s hs => ⟨hs.1.1, fun j => ?_⟩
    by_cases hj : j = k
    · subst hj
      right
      simp only [Function.update_self]
      exact ⟨hk, h, hs.2, trivial⟩
    · simp only [Function.update_of_ne hj]
      exact hs.1.2 j
  · rw [if_neg h]
    exact tri_ret fun s hs => hs

theorem utu_tri (ind : List ℕ) (mask : ℕ → Except PyErr (List ℕ)) (norm : E → Except PyErr Unit × E) (jac : (ℕ → List ℕ) → E → Except PyErr ℝ × E) (s0 : Acts E) :
    Tri (fun s => s = s0) (setUtu ind mask norm jac) (fun _ s => s.act = s0.act ∧ s.nele = s0.nele ∧ s.scale.isSome) (fun _ s => Sub ind mask s0 s) := by
  unfold setUtu
  refine tri_bind (Q := fun _ s => s.act = s0.act ∧ s.nele = s0.nele ∧ s.scale = s0.scale) (fun s hs => ⟨fun a s' h => ?_, fun e s' h => ?_⟩) fun _ => ?_
  · have h2 : { s with env := (norm s.env).2 } = s' := congrArg Prod.snd h
    rw [← h2, hs]
    exact ⟨rfl, rfl, rfl⟩
  · have h2 : { s with env := (norm s.env).2 } = s' := congrArg Prod.snd h
    rw [← h2, hs]
    exact ⟨rfl, fun k => .inl ⟨rfl, rfl⟩⟩
  intro s1 hs1
  rw [bind_ok (show Py.get s1 = (.ok s1, s1) from rfl)]
  refine tri_bind (P := Sub ind mask s0) (choose_tri ind mask s0 1 (.inl rfl)) (fun _ => ?_) s1 ⟨hs1.2.2, fun k => .inl ⟨by rw [hs1.1], by rw [hs1.2.1]⟩⟩
  refine tri_bind (choose_tri ind mask s0 2 (.inr rfl)) fun _ => ?_
  refine tri_bind (Q := fun _ s => Sub ind mask s0 s) (fun s hs => ⟨fun a s' h => ?_, fun e s' h => ?_⟩) fun g => ?_
  · have h2 : { s with env := (jac s.act s.env).2 } = s' := congrArg Prod.snd h
    rw [← h2]
    exact hs
  · have h2 : { s with env := (jac s.act s.env).2 } = s' := congrArg Prod.snd h
    rw [← h2]
    exact hs
  · refine tri_bind (Q := fun _ s => s.act = s0.act ∧ s.nele = s0.nele) (tri_set fun s hs => ⟨?_, ?_⟩) fun _ => tri_set fun s hs => ⟨hs.1, hs.2, rfl⟩
    · funext k
      dsimp only
      rcases hs.2 k with h | ⟨h1, h2, -⟩
      · split_ifs
        · rw [hs1.1]
        · exact h.1
      · rw [if_pos ⟨h1, h2⟩, hs1.1]
    · funext k
      dsimp only
      rcases hs.2 k with h | ⟨h1, h2, -⟩
      · split_ifs
        · rw [hs1.2.1]
        · exact h.2
      · rw [if_pos ⟨h1, h2⟩, hs1.2.1]

/-- **C144 (penalty scale, uninterrupted).** When `set_utu_scale_fac` returns, the actuators in use are as before and the scale is set. -/
theorem C144_utu_ok (ind : List ℕ) (mask : ℕ → Except PyErr (List ℕ)) (norm : E → Except PyErr Unit × E) (jac : (ℕ → List ℕ) → E → Except PyErr ℝ × E) (s s' : Acts E)
    (h : setUtu ind mask norm jac s = (.ok (), s')) : s'.act = s.act ∧ s'.nele = s.nele ∧ s'.scale.isSome :=
  (utu_tri ind mask norm jac s s rfl).1 () s' h

/-- **C144 (penalty scale, interrupted).** When it raises, each DM has the actuators of before or those of the subset, and the scale is as before. -/
theorem C144_utu_raised (ind : List ℕ) (mask : ℕ → Except PyErr (List ℕ)) (norm : E → Except PyErr Unit × E) (jac : (ℕ → List ℕ) → E → Except PyErr ℝ × E) (s s' : Acts E) (e : PyErr)
    (h : setUtu ind mask norm jac s = (.error e, s')) : Sub ind mask s s' :=
  (utu_tri ind mask norm jac s s rfl).2 e s' h

/-- **C144 (the subset stays).** When the Jacobian raises, the DMs in use keep the subset, and a second call that returns keeps it for good. -/
theorem C144_subset_stays (ind : List ℕ) (mask : ℕ → Except PyErr (List ℕ)) (norm : E → Except PyErr Unit × E) (jac : (ℕ → List ℕ) → E → Except PyErr ℝ × E) (s : Acts E) (l : ℕ → List ℕ)
    (env env' : E) (e : PyErr) (hn : norm s.env = (.ok (), env)) (hl : ∀ k ∈ ind, mask k = .ok (l k))
    (hj : jac (fun k => if (k = 1 ∨ k = 2) ∧ k ∈ ind then l k else s.act k) env = (.error e, env')) :
    ∃ s1, setUtu ind mask norm jac s = (.error e, s1) ∧ (∀ k, (k = 1 ∨ k = 2) → k ∈ ind → s1.act k = l k) ∧
      ∀ norm' jac' (env2 : E) (s2 : Acts E), setUtu ind mask norm' jac' { s1 with env := env2 } = (.ok (), s2) → ∀ k, (k = 1 ∨ k = 2) → k ∈ ind → s2.act k = l k := by
  have hc : ∀ (k : ℕ) (t : Acts E), ∃ t' : Acts E, choose ind mask k t = (.ok (), t') ∧ t'.env = t.env ∧ ∀ j, t'.act j = if j = k ∧ k ∈ ind then l k else t.act j := by
    intro k t
    unfold choose
    by_cases h : k ∈ ind
    · rw [if_pos h, hl k h]
      refine ⟨_, rfl, rfl, fun j => ?_⟩
      by_cases hj : j = k
      · subst hj; simp [h]
      · simp [hj]
    · rw [if_neg h]
      exact ⟨t, rfl, rfl, fun j => by simp [h]⟩
  obtain ⟨s1, h1, h2⟩ : ∃ s1 : Acts E, setUtu ind mask norm jac s = (.error e, s1) ∧ s1.act = fun k => if (k = 1 ∨ k = 2) ∧ k ∈ ind then l k else s.act k := by
    unfold setUtu
    rw [bind_ok (m := fun s : Acts E => ((norm s.env).1, { s with env := (norm s.env).2 })) (s' := { s with env := env }) (a := ()) (by simp only [hn])]
    rw [bind_ok (show Py.get ({ s with env := env } : Acts E) = (.ok _, _) from rfl)]
    obtain ⟨t1, a1, b1, c1⟩ := hc 1 { s with env := env }
    obtain ⟨t2, a2, b2, c2⟩ := hc 2 t1
    have hact : t2.act = fun k => if (k = 1 ∨ k = 2) ∧ k ∈ ind then l k else s.act k := by
      funext k
      rw [c2, c1]
      by_cases e1 : k = 1
      · subst e1; simp
      · by_cases e2 : k = 2
        · subst e2; simp
        · simp [e1, e2]
    have henv : t2.env = env := by rw [b2, b1]
    rw [bind_ok a1, bind_ok a2]
    refine ⟨{ t2 with env := env' }, ?_, hact⟩
    exact bind_error (m := fun s : Acts E => ((jac s.act s.env).1, { s with env := (jac s.act s.env).2 })) (by rw [hact, henv, hj])
  refine ⟨s1, h1, fun k hk hi => by rw [h2]; simp only [hk, hi, and_self, if_true], fun norm' jac' env2 s2 h k hk hi => ?_⟩
  rw [(C144_utu_ok ind mask norm' jac' _ s2 h).1, h2]
  simp only [hk, hi, and_self, if_true]

/-! ## The norms -/

/-- **C144 (norms).** `calc_psf_norm_factor` does not depend on the norms that were there: after an interruption a second call gives what an undisturbed one would have given. -/
theorem C144_norms_fresh (sim : Bool) (nsbp nw : ℕ) (fc fe : ℕ → E → Except PyErr ℝ × E) (ff : ℕ → ℕ → E → Except PyErr ℝ × E) (s s' : Norms E) (h : s.env = s'.env) :
    calcNorms sim nsbp nw fc fe ff s = calcNorms sim nsbp nw fc fe ff s' := by
  unfold calcNorms
  rw [bind_ok (show Py.set _ s = (.ok (), ⟨fun _ => 1, fun _ => 1, fun _ _ => 1, s.env⟩) from rfl),
    bind_ok (show Py.set _ s' = (.ok (), ⟨fun _ => 1, fun _ => 1, fun _ _ => 1, s'.env⟩) from rfl), h]

/-- **C144 (norms, interrupted).** Until then the norms are wrong: if the compact model raises in subband `k`, those of the subbands before are new and all others are 1. -/
theorem C144_norms_raised (sim : Bool) (nsbp nw : ℕ) (fc fe : ℕ → E → Except PyErr ℝ × E) (ff : ℕ → ℕ → E → Except PyErr ℝ × E) (s : Norms E) (k : ℕ) (hk : k < nsbp) (x : ℕ → ℝ) (env : ℕ → E)
    (h0 : env 0 = s.env) (hx : ∀ i < k, fc i (env i) = (.ok (x i), env (i + 1))) (e : PyErr) (env' : E) (he : fc k (env k) = (.error e, env')) :
    calcNorms sim nsbp nw fc fe ff s = (.error e, ⟨fun i => if i < k then x i else 1, fun _ => 1, fun _ _ => 1, env'⟩) := by
  unfold calcNorms
  rw [bind_ok (show Py.set _ s = (.ok (), ⟨fun _ => 1, fun _ => 1, fun _ _ => 1, s.env⟩) from rfl)]
  apply bind_error
  have hloop : ∀ (n j : ℕ) , j ≤ k → k < j + n →
      Py.each (fun si => (do
        let x ← peak (fc si)
        Py.set fun s => { s with compact := Function.update s.compact si x } : Py (Norms E) Unit)) ((List.range n).map (· + j)) ⟨fun i => if i < j then x i else 1, fun _ => 1, fun _ _ => 1, env j⟩ =
        (.error e, ⟨fun i => if i < k then x i else 1, fun _ => 1, fun _ _ => 1, env'⟩) := by
    intro n
    induction n with
    | zero => intro j h1 h2; omega
    | succ n ih =>
      intro j h1 h2
      rw [List.range_succ_eq_map, List.map_cons, List.map_map, show 0 + j = j by omega]
      rcases h1.lt_or_eq with hlt | heq
      · have hs : (do
            let x ← peak (fc j)
            Py.set fun s => { s with compact := Function.update s.compact j x } : Py (Norms E) Unit) ⟨fun i => if i < j then x i else 1, fun _ => 1, fun _ _ => 1, env j⟩ =
            (.ok (), ⟨fun i => if i < j + 1 then x i else 1, fun _ => 1, fun _ _ => 1, env (j + 1)⟩) := by
          rw [bind_ok (show peak (fc j) (⟨fun i => if i < j then x i else 1, fun _ => 1, fun _ _ => 1, env j⟩ : Norms E) = (.ok (x j), ⟨fun i => if i < j then x i else 1, fun _ => 1, fun _ _ => 1, env (j + 1)⟩) by
            unfold peak; rw [hx j hlt])]
          refine Prod.ext rfl ?_
          show (⟨Function.update (fun i => if i < j then x i else 1) j (x j), fun _ => 1, fun _ _ => 1, env (j + 1)⟩ : Norms E) = _
          congr 1
          funext i
          by_cases hi : i = j
          · subst hi; simp
          · rw [Function.update_of_ne hi]
            by_cases h : i < j
            · rw [if_pos h, if_pos (by omega)]
            · rw [if_neg h, if_neg (by omega)]
        refine (bind_ok hs).trans (bind_error ?_)
        rw [show (List.range n).map ((fun x => x + j) ∘ Nat.succ) = (List.range n).map (· + (j + 1)) from List.map_congr_left fun x _ => by simp; omega]
        exact ih (j + 1) (by omega) (by omega)
      · subst heq
        refine bind_error ?_
        exact bind_error (show peak (fc j) _ = _ by unfold peak; rw [he])
  have := hloop nsbp 0 (by omega) (by omega)
  rw [show (List.range nsbp).map (· + 0) = List.range nsbp by simp, h0] at this
  simpa using this

/-! ## Zernikes -/

variable {F : Type}

/-- **C144 (Zernikes).** When the field with a Zernike is returned, the pupil field and the coefficients are as before; with a PROPER model `mp.full.zval` keeps the coefficients with the
Zernike in it, and when the full model raises everything stays changed. -/
theorem C144_zern (proper : Bool) (wi si z : ℕ) (rms : ℝ) (phase : F → F) (full : Zst F E → Except PyErr Unit × E) (s : Zst F E) :
    zernField proper wi si z rms phase full s = match full (setZern proper wi si z rms phase s) with
      | (.ok _, env) => (.ok (), { s with zval := if proper then some (withZern s.zindex s.zvalm z rms).2 else s.zval, env := env })
      | (.error e, env) => (.error e, { setZern proper wi si z rms phase s with env := env }) := by
  unfold zernField
  rw [bind_ok (show Py.get s = (.ok s, s) from rfl)]
  rw [bind_ok (show Py.set _ s = (.ok (), setZern proper wi si z rms phase s) from rfl)]
  rcases hf : full (setZern proper wi si z rms phase s) with ⟨r, env⟩
  cases r with
  | ok a =>
    rw [bind_ok (m := fun s : Zst F E => ((full s).1, { s with env := (full s).2 })) (a := a) (s' := { setZern proper wi si z rms phase s with env := env }) (by simp only [hf])]
    unfold setZern
    cases proper <;> rfl
  | error e =>
    exact bind_error (m := fun s : Zst F E => ((full s).1, { s with env := (full s).2 })) (by simp only [hf])

/-- The coefficient of Zernike `k` that the two lists stand for. -/
def coef (zindex : List ℕ) (zvalm : List ℝ) (k : ℕ) : ℝ := ((List.zip zindex zvalm).map fun p => if p.1 = k then p.2 else 0).sum

/-- **C144 (coefficients of a PROPER model).** The lists given to a PROPER model have equal lengths and stand for the old coefficients, that of the Zernike raised by the amount. -/
theorem C144_zern_lists (zindex : List ℕ) (zvalm : List ℝ) (z : ℕ) (rms : ℝ) (hl : zindex.length = zvalm.length) (hn : zindex.Nodup) :
    (withZern zindex zvalm z rms).1.length = (withZern zindex zvalm z rms).2.length ∧
      ∀ k, coef (withZern zindex zvalm z rms).1 (withZern zindex zvalm z rms).2 k = coef zindex zvalm k + if k = z then rms else 0 := by
  unfold withZern
  by_cases hz : z ∈ zindex
  · rw [if_pos hz]
    refine ⟨by simp [hl], fun k => ?_⟩
    dsimp only
    induction zindex generalizing zvalm with
    | nil => simp at hz
    | cons i is ih =>
      cases zvalm with
      | nil => simp at hl
      | cons v vs =>
        rw [List.nodup_cons] at hn
        simp only [List.length_cons, add_left_inj] at hl
        by_cases hi : i = z
        · subst hi
          have hrest : ∀ vs : List ℝ, is.zip (List.zipWith (fun j w => if j = i then w + rms else w) is vs) = is.zip vs := by
            clear ih hl hz
            induction is with
            | nil => intro vs; rfl
            | cons a as ih' =>
              intro vs
              cases vs with
              | nil => rfl
              | cons w ws =>
                have ha : a ≠ i := fun h => hn.1 (by simp [h])
                simp only [List.zipWith_cons_cons, List.zip_cons_cons, if_neg ha]
                rw [ih' ⟨fun h => hn.1 (List.mem_cons_of_mem _ h), (List.nodup_cons.1 hn.2).2⟩]
          unfold coef
          simp only [List.zipWith_cons_cons, List.zip_cons_cons, if_true, List.map_cons, List.sum_cons]
          rw [hrest]
          by_cases hk : i = k
          · subst hk; simp; ring
          · rw [if_neg hk, if_neg hk, if_neg (fun h => hk h.symm)]; ring
        · have hz' : z ∈ is := by
            rcases List.mem_cons.1 hz with h | h
            · exact absurd h.symm hi
            · exact h
          have := ih vs hl hn.2 hz'
          unfold coef at this ⊢
          simp only [List.zipWith_cons_cons, List.zip_cons_cons, if_neg hi, List.map_cons, List.sum_cons]
          rw [this]; ring
  · rw [if_neg hz]
    refine ⟨by simp [hl], fun k => ?_⟩
    unfold coef
    dsimp only
    rw [List.zip_append hl]
    simp only [List.map_append, List.sum_append, List.zip_cons_cons, List.zip_nil_left, List.map_cons, List.map_nil, List.sum_cons, List.sum_nil, add_zero]
    congr 1
    by_cases hk : z = k
    · subst hk; simp
    · rw [if_neg hk, if_neg (fun h => hk h.symm)]

/-- **C144 (the Zernike stays).** A full model that raises leaves the pupil field of that wavelength multiplied by the phase of the Zernike; a second call that returns leaves it so. -/
theorem C144_zern_stays (wi si z : ℕ) (rms : ℝ) (phase : F → F) (full full' : Zst F E → Except PyErr Unit × E) (s s1 s2 : Zst F E) (e : PyErr) (env2 : E)
    (h : zernField false wi si z rms phase full s = (.error e, s1)) (h2 : zernField false wi si z rms phase full' { s1 with env := env2 } = (.ok (), s2)) :
    s1.pup (wi, si) = phase (s.pup (wi, si)) ∧ s2.pup (wi, si) = phase (s.pup (wi, si)) := by
  rw [C144_zern] at h h2
  rcases hf : full (setZern false wi si z rms phase s) with ⟨r, env⟩
  rw [hf] at h
  cases r with
  | ok a => cases h
  | error e' =>
    cases h
    have h1 : ({ setZern false wi si z rms phase s with env := env } : Zst F E).pup (wi, si) = phase (s.pup (wi, si)) := by
      simp [setZern]
    refine ⟨h1, ?_⟩
    rcases hg : full' (setZern false wi si z rms phase { ({ setZern false wi si z rms phase s with env := env } : Zst F E) with env := env2 }) with ⟨r, env3⟩
    rw [hg] at h2
    cases r with
    | ok a => cases h2; exact h1
    | error e' => cases h2

end

/-! ## The hypotheses can be met -/

/-- Probing with DM 1 of a system that controls DM 2 only; the camera gives the unprobed image and then breaks down. -/
def sample : Probing ℤ ℕ ℤ where
  which := 1
  stars := 1
  subbands := 1
  pairs := 2
  useJac := false
  image := fun _ v _ n => if n = 0 then (.ok (v 1), 1) else (.error .valueError, n)
  probe := fun _ _ k => .ok (if k % 2 = 0 then 7 else -7)
  field := fun _ _ _ _ n => (.ok (), n)
  solve := fun _ _ _ _ n => (.ok (), n)

example : sample.run ⟨fun d => 10 * d, [2], 0⟩ = (.error .valueError, ⟨during 1 ⟨fun d => 10 * d, [2], 0⟩ 7, [2, 1], 1⟩) :=
  C144_probe_stays sample (.inl rfl) (by decide) (by decide) ⟨fun d => 10 * d, [2], 0⟩ 10 0 (by decide) (fun k => if k % 2 = 0 then 7 else -7) (fun _ => 1) .valueError 1
    rfl (fun j _ => rfl) (fun j hj => absurd hj (by omega)) rfl

example : during 1 (⟨fun d => 10 * d, [2], 0⟩ : St ℤ ℕ) 7 1 = 17 := by decide

/-- The same with a camera that works. -/
def working : Probing ℤ ℕ ℤ := { sample with pairs := 1, image := fun _ v _ n => (.ok (v 1), n) }

example : ∃ s, working.run ⟨fun d => 10 * d, [2], 0⟩ = (.ok (), s) ∧ s.v 1 = 10 ∧ s.ind = [2] := by
  have h : (match (working.run ⟨fun d => 10 * d, [2], 0⟩).1 with | .ok _ => true | .error _ => false) = true := by decide +kernel
  rcases hr : working.run ⟨fun d => 10 * d, [2], 0⟩ with ⟨r, s⟩
  rw [hr] at h
  cases r with
  | error e => simp at h
  | ok a =>
    obtain ⟨h1, h2, -⟩ := C144_probing_ok working (.inl rfl) _ s hr
    exact ⟨s, rfl, by simpa [working, sample] using h2, h1⟩

/-- Two trials; the image of the second raises. -/
def trialOk : Trial ℤ ℕ := { useModel := false, subbands := 1, solve := fun _ _ n => (.ok fun k => 5 * k, n), image := fun _ _ n => (.ok (), n), field := fun _ _ _ n => (.ok (), n) }
def trialBad : Trial ℤ ℕ := { trialOk with image := fun _ _ n => (.error .valueError, n) }

example : ∃ ds s, grid [trialOk, { trialOk with useModel := true }] ⟨fun d => 10 * d, [1, 2], 0⟩ = (.ok ds, s) ∧ s.v 2 = 20 := ⟨_, _, rfl, by decide⟩
example : ∃ s, grid [trialOk, trialBad] ⟨fun d => 10 * d, [1, 2], 0⟩ = (.error .valueError, s) ∧ s.v 2 = 30 := ⟨_, rfl, by decide⟩
example : grid [trialBad] ⟨fun d => 10 * d, [1, 2], 0⟩ = (.error .valueError, ⟨plus ⟨fun d => 10 * d, [1, 2], 0⟩ (fun k => 5 * k), [1, 2], 0⟩) :=
  (C144_trial_stays trialBad [] rfl ⟨fun d => 10 * d, [1, 2], 0⟩ (fun k => 5 * k) 0 0 .valueError rfl rfl).1

/-- The penalty scale with a Jacobian that raises: DM 1 keeps the two actuators of the subset. -/
example : ∃ s1, setUtu [1] (fun _ => .ok [3, 4]) (fun n => (.ok (), n)) (fun _ n => (.error .linAlgError, n)) (⟨fun _ => [0, 1, 2, 3, 4, 5], fun _ => 6, none, 0⟩ : Acts ℕ) = (.error .linAlgError, s1) ∧
    s1.act 1 = [3, 4] := by
  obtain ⟨s1, h1, h2, -⟩ := C144_subset_stays [1] (fun _ => .ok [3, 4]) (fun n => (.ok (), n)) (fun _ n => (.error .linAlgError, n))
    (⟨fun _ => [0, 1, 2, 3, 4, 5], fun _ => 6, none, 0⟩ : Acts ℕ) (fun _ => [3, 4]) 0 0 .linAlgError rfl (fun _ _ => rfl) rfl
  exact ⟨s1, h1, h2 1 (.inl rfl) (by simp)⟩

/-- The norms of three subbands; the compact model raises in the second. -/
example : calcNorms true 3 1 (fun i n => if i = 1 then (.error .valueError, n) else (.ok 4, n + 1)) (fun _ n => (.ok 5, n)) (fun _ _ n => (.ok 6, n)) (⟨fun _ => 9, fun _ => 9, fun _ _ => 9, 0⟩ : Norms ℕ) =
    (.error .valueError, ⟨fun i => if i < 1 then 4 else 1, fun _ => 1, fun _ _ => 1, 1⟩) :=
  C144_norms_raised true 3 1 _ _ _ _ 1 (by decide) (fun _ => 4) (fun i => i) rfl (fun i hi => by simp [show i = 0 by omega]) .valueError 1 (by simp)

/-- A full model that raises once. -/
example : ∃ s1 s2 : Zst ℤ ℕ, zernField false 0 0 4 1 (fun x => x + 1) (fun _ => (.error .valueError, 0)) ⟨fun _ => 3, [], [], none, 0⟩ = (.error .valueError, s1) ∧
    zernField false 0 0 4 1 (fun x => x + 1) (fun _ => (.ok (), 0)) { s1 with env := 0 } = (.ok (), s2) := by
  refine ⟨(zernField false 0 0 4 1 (fun x => x + 1) (fun _ => (.error .valueError, 0)) ⟨fun _ => 3, [], [], none, 0⟩).2, (zernField false 0 0 4 1 (fun x => x + 1) (fun _ => (.ok (), 0))
    { (zernField false 0 0 4 1 (fun x => x + 1) (fun _ => (.error .valueError, 0)) (⟨fun _ => 3, [], [], none, 0⟩ : Zst ℤ ℕ)).2 with env := 0 }).2, ?_, ?_⟩
  · rw [C144_zern]
  · rw [C144_zern]

end Verif.Interrupt
