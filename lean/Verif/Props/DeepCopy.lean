import Verif.Model.DeepCopy
import Mathlib.Data.Finset.Card
import Mathlib.Data.Finset.Filter
import Mathlib.Data.Finset.Range
import Mathlib.Data.List.Forall2
import Mathlib.Tactic.Linarith
import Mathlib.Tactic.IntervalCases

/-! # C155: deep copies of configurations -/

namespace Verif.DeepCopy

/-! ## Specification: reading -/

/-- What a reader sees: a plain value, or an object of some kind with some field names. -/
inductive Seen where
  | value (v : ℕ)
  | object (kind : String) (names : List String)
  /-- AttributeError, or an exception of the expression -/
  | error
  deriving DecidableEq

/-- The value of an expression, given how paths are read; `none`: not found at this depth of evaluation. -/
def evalCode (rd : List String → Option Seen) : Code → Option Seen
  | .ret v => some (.value v)
  | .fail => some .error
  | .read path k =>
    match rd path with
    | none => none
    | some .error => some .error
    | some (.value v) => evalCode rd (k (some v))
    | some (.object _ _) => evalCode rd (k none)

/-- What `x.f.g...` reads at the object with reference `x`: fields are looked up by name, lazy values are evaluated with the names in their `locals`, plain values have no fields.
`none` means that the evaluation needs more than `depth` steps, for every `depth` if it reaches itself (reported as ValueError, C48). -/
def look (h : List Cell) : ℕ → ℕ → List String → Option Seen
  | 0, _, _ => none
  | depth + 1, x, path =>
    match h[x]?, path with
    | none, _ => some .error
    | some (.plain v), [] => some (.value v)
    | some (.plain _), _ :: _ => some .error
    | some (.node kind es), [] => some (.object kind (es.map Prod.fst))
    | some (.node _ es), f :: p =>
      match es.lookup f with
      | none => some .error
      | some z => look h depth z p
    | some (.lazy code l), p =>
      match evalCode (look h depth l) code with
      | none => none
      | some (.value v) => if p = [] then some (.value v) else some .error
      | some _ => some .error

/-- One reference leads to another one: through a field, or from a lazy value to the names its expression can use. -/
inductive Step where
  | field (name : String)
  | locals
  deriving DecidableEq

/-- The object reached from `x`. -/
def follow (h : List Cell) : ℕ → List Step → Option ℕ
  | x, [] => some x
  | x, .field f :: p =>
    match h[x]? with
    | some (.node _ es) =>
      match es.lookup f with
      | some z => follow h z p
      | none => none
    | _ => none
  | x, .locals :: p =>
    match h[x]? with
    | some (Cell.lazy _ l) => follow h l p
    | _ => none

/-- Memory without dangling references, in which the names of expressions are in a dictionary. -/
structure WellFormed (h : List Cell) : Prop where
  entries : ∀ (x : ℕ) (kind : String) (es : List (String × ℕ)), h[x]? = some (Cell.node kind es) → ∀ e ∈ es, e.2 < h.length
  locals : ∀ (x : ℕ) (c : Code) (l : ℕ), h[x]? = some (Cell.lazy c l) → ∃ (kind : String) (es : List (String × ℕ)), h[l]? = some (Cell.node kind es)

/-- The objects with references from `a` up to (not including) `b` are the same in both memories. -/
def SameIn (h h' : List Cell) (a b : ℕ) : Prop := ∀ x, a ≤ x → x < b → h'[x]? = h[x]?

/-- `x` is an `Eval` object. -/
def IsLazy (h : List Cell) (x : ℕ) : Prop := ∃ c l, h[x]? = some (Cell.lazy c l)

/-! ## Proofs -/

/-- The relation of originals and copies. -/
abbrev Rel := ℕ → ℕ → Prop

def Ext (P Q : Rel) : Prop := ∀ x y, P x y → Q x y

/-- The cell of the copy is finished. -/
def Match (h h' : List Cell) (P : Rel) (x y : ℕ) : Prop :=
  match h[x]? with
  | none => False
  | some (.plain v) => h'[y]? = some (.plain v)
  | some (.node kind es) => ∃ es', h'[y]? = some (.node kind es') ∧ List.Forall₂ (fun e e' => e.1 = e'.1 ∧ P e.2 e'.2) es es'
  | some (.lazy c l) => ∃ l', h'[y]? = some (.lazy c l') ∧ P l l'

structure Inv (h : List Cell) (s : St) (P : Rel) : Prop where
  len : h.length ≤ s.heap.length
  old : SameIn h s.heap 0 h.length
  memo : ∀ x y, s.memo x = some y → P x y
  tot : ∀ x y, P x y → ¬ IsLazy h x → s.memo x = some y
  rng : ∀ x y, P x y → x < h.length ∧ h.length ≤ y ∧ y < s.heap.length
  inj : ∀ x x' y, P x y → P x' y → x = x'

structure Post (h : List Cell) (s s' : St) (P P' : Rel) : Prop where
  inv : Inv h s' P'
  ext : Ext P P'
  grow : s.heap.length ≤ s'.heap.length
  keep : SameIn s.heap s'.heap 0 s.heap.length
  memo : ∀ x, s.memo x ≠ none → s'.memo x ≠ none
  done : ∀ x y, P' x y → P x y ∨ (s.heap.length ≤ y ∧ Match h s'.heap P' x y)

theorem forall₂_mono {α β : Type} {R S : α → β → Prop} (hRS : ∀ a b, R a b → S a b) {l : List α} {l' : List β} (hl : List.Forall₂ R l l') :
    List.Forall₂ S l l' := hl.imp hRS

theorem Match.mono {h h1 h2 : List Cell} {P Q : Rel} {x y : ℕ} (hm : Match h h1 P x y) (he : Ext P Q) (hy : h2[y]? = h1[y]?) : Match h h2 Q x y := by
  unfold Match at hm ⊢
  rcases hx : h[x]? with _ | (v | ⟨kind, es⟩ | ⟨c, l⟩)
  · rw [hx] at hm; exact hm
  · rw [hx] at hm; simp only at hm ⊢; rw [hy]; exact hm
  · rw [hx] at hm; simp only at hm ⊢
    obtain ⟨es', h1, h2⟩ := hm
    exact ⟨es', by rw [hy]; exact h1, forall₂_mono (fun a b hab => ⟨hab.1, he _ _ hab.2⟩) h2⟩
  · rw [hx] at hm; simp only at hm ⊢
    obtain ⟨l', h1, h2⟩ := hm
    exact ⟨l', by rw [hy]; exact h1, he _ _ h2⟩

theorem Post.refl {h : List Cell} {s : St} {P : Rel} (hi : Inv h s P) : Post h s s P P :=
  ⟨hi, fun _ _ hp => hp, le_refl _, fun _ _ _ => rfl, fun _ hx => hx, fun _ _ hp => Or.inl hp⟩

theorem Post.trans {h : List Cell} {s s' s'' : St} {P P' P'' : Rel} (a : Post h s s' P P') (b : Post h s' s'' P' P'') : Post h s s'' P P'' := by
  refine ⟨b.inv, fun _ _ hp => b.ext _ _ (a.ext _ _ hp), le_trans a.grow b.grow, ?_, fun x hx => b.memo x (a.memo x hx), ?_⟩
  · intro x h0 hx
    rw [b.keep x h0 (lt_of_lt_of_le hx a.grow), a.keep x h0 hx]
  · intro x y hp
    rcases b.done x y hp with h1 | ⟨h1, h2⟩
    · rcases a.done x y h1 with h3 | ⟨h3, h4⟩
      · exact Or.inl h3
      · refine Or.inr ⟨h3, h4.mono b.ext (b.keep y (Nat.zero_le _) ?_)⟩
        exact (a.inv.rng x y h1).2.2
    · exact Or.inr ⟨le_trans a.grow h1, h2⟩

/-- What a copying function has to do. -/
def Good (h : List Cell) (copy : ℕ → St → Option (ℕ × St)) : Prop :=
  ∀ x s P y s', x < h.length → Inv h s P → copy x s = some (y, s') → ∃ P', Post h s s' P P' ∧ P' x y

theorem copyEntries_post {h : List Cell} {copy : ℕ → St → Option (ℕ × St)} (hg : Good h copy) :
    ∀ (es : List (String × ℕ)) (s : St) (P : Rel) (es' : List (String × ℕ)) (s' : St), (∀ e ∈ es, e.2 < h.length) → Inv h s P →
      copyEntries copy es s = some (es', s') →
      ∃ P', Post h s s' P P' ∧ List.Forall₂ (fun e e' => e.1 = e'.1 ∧ P' e.2 e'.2) es es' := by
  intro es
  induction es with
  | nil =>
    intro s P es' s' _ hi hc
    simp only [copyEntries, Option.some.injEq, Prod.mk.injEq] at hc
    obtain ⟨rfl, rfl⟩ := hc
    exact ⟨P, Post.refl hi, List.Forall₂.nil⟩
  | cons e es ih =>
    intro s P es' s' hlt hi hc
    unfold copyEntries at hc
    rcases h1 : copy e.2 s with _ | ⟨y, s1⟩
    · rw [h1] at hc; simp at hc
    rw [h1] at hc
    simp only at hc
    rcases h2 : copyEntries copy es s1 with _ | ⟨ys, s2⟩
    · rw [h2] at hc; simp at hc
    rw [h2] at hc
    simp only [Option.some.injEq, Prod.mk.injEq] at hc
    obtain ⟨rfl, rfl⟩ := hc
    obtain ⟨P1, hp1, hy⟩ := hg e.2 s P y s1 (hlt e (by simp)) hi h1
    obtain ⟨P2, hp2, hf⟩ := ih s1 P1 ys s2 (fun e' he' => hlt e' (by simp [he'])) hp1.inv h2
    exact ⟨P2, hp1.trans hp2, List.Forall₂.cons ⟨rfl, hp2.ext _ _ hy⟩ hf⟩

/-- The relation with one more pair. -/
def addPair (P : Rel) (x y : ℕ) : Rel := fun a b => P a b ∨ (a = x ∧ b = y)

theorem getElem?_append_old (l : List Cell) (c : Cell) {x : ℕ} (hx : x < l.length) : (l ++ [c])[x]? = l[x]? :=
  List.getElem?_append_left hx

/-- Allocation of a cell for the copy of `x`. -/
theorem Inv.alloc {h : List Cell} {s : St} {P : Rel} (hi : Inv h s P) {x : ℕ} (hx : x < h.length) (hm : IsLazy h x ∨ s.memo x = none) (c : Cell) :
    Inv h ⟨s.heap ++ [c], Function.update s.memo x (some s.heap.length)⟩ (addPair P x s.heap.length) := by
  refine ⟨?_, ?_, ?_, ?_, ?_, ?_⟩
  · simp only [List.length_append, List.length_singleton]; have := hi.len; omega
  · intro j h0 hj
    show (s.heap ++ [c])[j]? = _
    rw [getElem?_append_old _ _ (lt_of_lt_of_le hj hi.len)]; exact hi.old j h0 hj
  · intro a b hab
    by_cases ha : a = x
    · subst ha
      simp only [Function.update_self, Option.some.injEq] at hab
      exact Or.inr ⟨rfl, hab.symm⟩
    · simp only [Function.update_of_ne ha] at hab
      exact Or.inl (hi.memo a b hab)
  · intro a b hab hl
    rcases hab with hab | ⟨rfl, rfl⟩
    · by_cases ha : a = x
      · subst ha
        rcases hm with hm | hm
        · exact absurd hm hl
        · rw [hi.tot a b hab hl] at hm; simp at hm
      · simp only [Function.update_of_ne ha]; exact hi.tot a b hab hl
    · simp
  · intro a b hab
    rcases hab with hab | ⟨rfl, rfl⟩
    · have := hi.rng a b hab
      exact ⟨this.1, this.2.1, by simp only [List.length_append, List.length_singleton]; omega⟩
    · exact ⟨hx, hi.len, by simp⟩
  · intro a a' b h1 h2
    rcases h1 with h1 | ⟨rfl, rfl⟩
    · rcases h2 with h2 | ⟨rfl, rfl⟩
      · exact hi.inj a a' b h1 h2
      · exact absurd (hi.rng _ _ h1).2.2 (lt_irrefl _)
    · rcases h2 with h2 | ⟨rfl, _⟩
      · exact absurd (hi.rng _ _ h2).2.2 (lt_irrefl _)
      · rfl

theorem deepcopy_good {h : List Cell} (hw : WellFormed h) : ∀ limit, Good h (deepcopy limit) := by
  intro limit
  induction limit with
  | zero => intro x s P y s' _ _ hc; simp [deepcopy] at hc
  | succ limit ih =>
    intro x s P y s' hx hi hc
    unfold deepcopy at hc
    rcases hm : s.memo x with _ | y0
    swap
    · rw [hm] at hc
      simp only [Option.some.injEq, Prod.mk.injEq] at hc
      obtain ⟨rfl, rfl⟩ := hc
      exact ⟨P, Post.refl hi, hi.memo _ _ hm⟩
    rw [hm] at hc
    simp only at hc
    have hcell : s.heap[x]? = h[x]? := hi.old x (Nat.zero_le _) hx
    rw [hcell] at hc
    rcases hhx : h[x]? with _ | (v | ⟨kind, es⟩ | ⟨c, l⟩)
    · rw [hhx] at hc; simp at hc
    · rw [hhx] at hc
      simp only [Option.some.injEq, Prod.mk.injEq] at hc
      obtain ⟨rfl, rfl⟩ := hc
      refine ⟨_, ⟨hi.alloc hx (Or.inr hm) (.plain v), fun _ _ hp => Or.inl hp, by simp, ?_, ?_, ?_⟩, Or.inr ⟨rfl, rfl⟩⟩
      · intro j _ hj; exact getElem?_append_old _ _ hj
      · intro a ha
        by_cases hax : a = x
        · subst hax; simp
        · simpa only [Function.update_of_ne hax] using ha
      · intro a b hab
        rcases hab with hab | ⟨rfl, rfl⟩
        · exact Or.inl hab
        · refine Or.inr ⟨le_refl _, ?_⟩
          unfold Match; rw [hhx]; simp
    · rw [hhx] at hc
      simp only at hc
      rcases h2 : copyEntries (deepcopy limit) es ⟨s.heap ++ [.node kind []], Function.update s.memo x (some s.heap.length)⟩ with _ | ⟨es', s2⟩
      · rw [h2] at hc; simp at hc
      rw [h2] at hc
      simp only [Option.some.injEq, Prod.mk.injEq] at hc
      obtain ⟨rfl, rfl⟩ := hc
      have ha := hi.alloc hx (Or.inr hm) (.node kind [])
      obtain ⟨P2, hp, hf⟩ := copyEntries_post ih es _ _ es' s2 (hw.entries x _ _ hhx) ha h2
      have hlen2 : s.heap.length + 1 ≤ s2.heap.length := by have := hp.grow; simpa using this
      refine ⟨P2, ⟨?_, fun _ _ hq => hp.ext _ _ (Or.inl hq), ?_, ?_, ?_, ?_⟩, hp.ext _ _ (Or.inr ⟨rfl, rfl⟩)⟩
      · have hi2 := hp.inv
        refine ⟨by simpa using hi2.len, ?_, hi2.memo, hi2.tot, fun a b hab => by simpa using hi2.rng a b hab, hi2.inj⟩
        intro j h0 hj
        have : j ≠ s.heap.length := by have := hi.len; omega
        show (s2.heap.set s.heap.length _)[j]? = _
        rw [List.getElem?_set_ne (Ne.symm this)]
        exact hi2.old j h0 hj
      · simp only [List.length_set]; omega
      · intro j h0 hj
        show (s2.heap.set s.heap.length _)[j]? = _
        rw [List.getElem?_set_ne (by omega), hp.keep j h0 (by simp only [List.length_append, List.length_singleton]; omega)]
        exact getElem?_append_old _ _ hj
      · intro a ha'
        refine hp.memo a ?_
        by_cases hax : a = x
        · subst hax; simp
        · simpa only [Function.update_of_ne hax] using ha'
      · intro a b hab
        rcases hp.done a b hab with (hq | ⟨rfl, rfl⟩) | ⟨h3, h4⟩
        · exact Or.inl hq
        · refine Or.inr ⟨le_refl _, ?_⟩
          unfold Match; rw [hhx]
          exact ⟨es', by simp only; rw [List.getElem?_set_self (by omega)], hf⟩
        · simp only [List.length_append, List.length_singleton] at h3
          refine Or.inr ⟨by omega, h4.mono (fun _ _ hq => hq) ?_⟩
          show (s2.heap.set s.heap.length _)[b]? = _
          exact List.getElem?_set_ne (by omega)
    · rw [hhx] at hc
      simp only at hc
      rcases h2 : deepcopy limit l s with _ | ⟨l', s1⟩
      · rw [h2] at hc; simp at hc
      rw [h2] at hc
      simp only [Option.some.injEq, Prod.mk.injEq] at hc
      obtain ⟨rfl, rfl⟩ := hc
      have hl : l < h.length := by
        obtain ⟨k, es, hn⟩ := hw.locals x _ _ hhx
        exact (List.getElem?_eq_some_iff.mp hn).1
      obtain ⟨P1, hp, hy⟩ := ih l s P l' s1 hl hi h2
      refine ⟨_, hp.trans ⟨hp.inv.alloc hx (Or.inl ⟨c, l, hhx⟩) (.lazy c l'), fun _ _ hq => Or.inl hq, by simp, ?_, ?_, ?_⟩, Or.inr ⟨rfl, rfl⟩⟩
      · intro j _ hj; exact getElem?_append_old _ _ hj
      · intro a ha
        by_cases hax : a = x
        · subst hax; simp
        · simpa only [Function.update_of_ne hax] using ha
      · intro a b hab
        rcases hab with hab | ⟨rfl, rfl⟩
        · exact Or.inl hab
        · refine Or.inr ⟨le_refl _, ?_⟩
          unfold Match; rw [hhx]
          exact ⟨l', by simp, Or.inl hy⟩

/-! ### It ends -/

/-- The objects that have no copy yet. -/
noncomputable def todo (h : List Cell) (memo : ℕ → Option ℕ) : Finset ℕ :=
  open Classical in (Finset.range h.length).filter fun x => memo x = none ∧ ∃ (kind : String) (es : List (String × ℕ)), h[x]? = some (Cell.node kind es)

theorem todo_mono {h : List Cell} {m m' : ℕ → Option ℕ} (hm : ∀ x, m x ≠ none → m' x ≠ none) : (todo h m').card ≤ (todo h m).card := by
  apply Finset.card_le_card
  intro x hx
  simp only [todo, Finset.mem_filter] at hx ⊢
  refine ⟨hx.1, ?_, hx.2.2⟩
  by_contra hc
  exact hm x hc hx.2.1

theorem copyEntries_some {h : List Cell} {copy : ℕ → St → Option (ℕ × St)} (hg : Good h copy) {u : ℕ}
    (hs : ∀ x s P, x < h.length → Inv h s P → (todo h s.memo).card ≤ u → copy x s ≠ none) :
    ∀ (es : List (String × ℕ)) (s : St) (P : Rel), (∀ e ∈ es, e.2 < h.length) → Inv h s P → (todo h s.memo).card ≤ u → copyEntries copy es s ≠ none := by
  intro es
  induction es with
  | nil => intro s P _ _ _; simp [copyEntries]
  | cons e es ih =>
    intro s P hlt hi hu
    unfold copyEntries
    rcases h1 : copy e.2 s with _ | ⟨y, s1⟩
    · exact absurd h1 (hs e.2 s P (hlt e (by simp)) hi hu)
    obtain ⟨P1, hp, _⟩ := hg e.2 s P y s1 (hlt e (by simp)) hi h1
    have h2 := ih s1 P1 (fun e' he' => hlt e' (by simp [he'])) hp.inv (le_trans (todo_mono hp.memo) hu)
    simp only
    rcases h3 : copyEntries copy es s1 with _ | ⟨ys, s2⟩
    · exact absurd h3 h2
    · simp

open Classical in
theorem deepcopy_some {h : List Cell} (hw : WellFormed h) : ∀ (limit x : ℕ) (s : St) (P : Rel), x < h.length → Inv h s P →
    2 * (todo h s.memo).card + (if IsLazy h x then 2 else 1) ≤ limit → deepcopy limit x s ≠ none := by
  intro limit
  induction limit with
  | zero => intro x s P _ _ hl; split_ifs at hl <;> omega
  | succ limit ih =>
    intro x s P hx hi hl
    unfold deepcopy
    rcases hm : s.memo x with _ | y0
    swap
    · simp
    simp only
    have hcell : s.heap[x]? = h[x]? := hi.old x (Nat.zero_le _) hx
    rw [hcell]
    rcases hhx : h[x]? with _ | (v | ⟨kind, es⟩ | ⟨c, l⟩)
    · rw [List.getElem?_eq_none_iff] at hhx; omega
    · simp
    · simp only
      have ha := hi.alloc hx (Or.inr hm) (.node kind [])
      have hnl : ¬ IsLazy h x := by rintro ⟨c, l, hc⟩; rw [hhx] at hc; simp at hc
      rw [if_neg hnl] at hl
      have hcard : (todo h (Function.update s.memo x (some s.heap.length))).card < (todo h s.memo).card := by
        apply Finset.card_lt_card
        refine ⟨?_, ?_⟩
        · intro a haa
          simp only [todo, Finset.mem_filter] at haa ⊢
          refine ⟨haa.1, ?_, haa.2.2⟩
          by_cases hax : a = x
          · subst hax; simp at haa
          · simpa only [Function.update_of_ne hax] using haa.2.1
        · intro hsub
          have hmem : x ∈ todo h s.memo := by
            unfold todo; rw [Finset.mem_filter]
            exact ⟨Finset.mem_range.mpr hx, hm, kind, es, hhx⟩
          have := hsub hmem
          simp [todo] at this
      have := copyEntries_some (deepcopy_good hw limit) (u := (todo h (Function.update s.memo x (some s.heap.length))).card)
        (fun x' s' P' hx' hi' hu' => ih x' s' P' hx' hi' (by split_ifs <;> omega)) es _ _ (hw.entries x _ _ hhx) ha (le_refl _)
      intro hcon
      split at hcon
      · next h2 => exact this h2
      · simp at hcon
    · simp only
      have hz : IsLazy h x := ⟨c, l, hhx⟩
      rw [if_pos hz] at hl
      obtain ⟨k, es, hn⟩ := hw.locals x _ _ hhx
      have hln : ¬ IsLazy h l := by rintro ⟨c', l', hc⟩; rw [hn] at hc; simp at hc
      have := ih l s P (List.getElem?_eq_some_iff.mp hn).1 hi (by rw [if_neg hln]; omega)
      rcases h2 : deepcopy limit l s with _ | ⟨l', s1⟩
      · exact absurd h2 this
      · simp

/-! ### What the copy reads -/

theorem lookup_related {R : ℕ → ℕ → Prop} {es es' : List (String × ℕ)} (hf : List.Forall₂ (fun e e' => e.1 = e'.1 ∧ R e.2 e'.2) es es') (f : String) :
    (es.lookup f = none ∧ es'.lookup f = none) ∨ ∃ z z', es.lookup f = some z ∧ es'.lookup f = some z' ∧ R z z' := by
  induction hf with
  | nil => left; simp
  | @cons e e' es es' he _ ih =>
    obtain ⟨k, v⟩ := e
    obtain ⟨k', v'⟩ := e'
    obtain ⟨h1, h2⟩ := he
    simp only at h1 h2
    subst h1
    by_cases hk : f = k
    · subst hk
      right; exact ⟨v, v', by simp, by simp, h2⟩
    · have hb : (f == k) = false := by simpa using hk
      simpa only [List.lookup_cons, hb] using ih

theorem names_related {R : ℕ → ℕ → Prop} {es es' : List (String × ℕ)} (hf : List.Forall₂ (fun e e' => e.1 = e'.1 ∧ R e.2 e'.2) es es') :
    es'.map Prod.fst = es.map Prod.fst := by
  induction hf with
  | nil => rfl
  | cons he _ ih => simp [he.1, ih]

theorem evalCode_congr {rd rd' : List String → Option Seen} (hr : ∀ p, rd p = rd' p) (c : Code) : evalCode rd c = evalCode rd' c := by
  rw [funext hr]

/-- All pairs are finished. -/
def Bisim (h h' : List Cell) (P : Rel) : Prop := ∀ x y, P x y → Match h h' P x y

theorem Bisim.look {h h' : List Cell} {P : Rel} (hb : Bisim h h' P) : ∀ (d x y : ℕ) (p : List String), P x y → look h' d y p = look h d x p := by
  intro d
  induction d with
  | zero => intro x y p _; rfl
  | succ d ih =>
    intro x y p hp
    have hm := hb x y hp
    unfold Match at hm
    rcases hx : h[x]? with _ | (v | ⟨kind, es⟩ | ⟨c, l⟩)
    · rw [hx] at hm; exact absurd hm id
    · rw [hx] at hm; simp only at hm
      unfold DeepCopy.look; rw [hx, hm]; cases p <;> rfl
    · rw [hx] at hm; simp only at hm
      obtain ⟨es', h1, h2⟩ := hm
      unfold DeepCopy.look; rw [hx, h1]
      cases p with
      | nil => simp only; rw [names_related h2]
      | cons f p =>
        rcases lookup_related h2 f with ⟨h3, h4⟩ | ⟨z, z', h3, h4, h5⟩
        · simp only; rw [h3, h4]
        · simp only; rw [h3, h4]; exact ih z z' p h5
    · rw [hx] at hm; simp only at hm
      obtain ⟨l', h1, h2⟩ := hm
      unfold DeepCopy.look; rw [hx, h1]
      simp only
      rw [evalCode_congr (rd := DeepCopy.look h' d l') (rd' := DeepCopy.look h d l) fun q => ih l l' q h2]

theorem Bisim.follow {h h' : List Cell} {P : Rel} (hb : Bisim h h' P) : ∀ (p : List Step) (x y : ℕ), P x y →
    (DeepCopy.follow h x p = none ∧ DeepCopy.follow h' y p = none) ∨ ∃ z z', DeepCopy.follow h x p = some z ∧ DeepCopy.follow h' y p = some z' ∧ P z z' := by
  intro p
  induction p with
  | nil => intro x y hp; right; exact ⟨x, y, rfl, rfl, hp⟩
  | cons st p ih =>
    intro x y hp
    have hm := hb x y hp
    unfold Match at hm
    rcases hx : h[x]? with _ | (v | ⟨kind, es⟩ | ⟨c, l⟩)
    · rw [hx] at hm; exact absurd hm id
    · rw [hx] at hm; simp only at hm
      left; cases st <;> simp [DeepCopy.follow, hx, hm]
    · rw [hx] at hm; simp only at hm
      obtain ⟨es', h1, h2⟩ := hm
      cases st with
      | locals => left; simp [DeepCopy.follow, hx, h1]
      | field f =>
        rcases lookup_related h2 f with ⟨h3, h4⟩ | ⟨z, z', h3, h4, h5⟩
        · left; simp [DeepCopy.follow, hx, h1, h3, h4]
        · simpa [DeepCopy.follow, hx, h1, h3, h4] using ih z z' h5
    · rw [hx] at hm; simp only at hm
      obtain ⟨l', h1, h2⟩ := hm
      cases st with
      | field f => left; simp [DeepCopy.follow, hx, h1]
      | locals => simpa [DeepCopy.follow, hx, h1] using ih l l' h2

theorem copyOf_bisim {limit : ℕ} {h h' : List Cell} {x y : ℕ} (hw : WellFormed h) (hx : x < h.length) (hc : copyOf limit h x = some (y, h')) :
    ∃ P s, s.heap = h' ∧ Inv h s P ∧ Bisim h h' P ∧ P x y := by
  unfold copyOf at hc
  rcases h1 : deepcopy limit x ⟨h, fun _ => none⟩ with _ | ⟨y1, s1⟩
  · rw [h1] at hc; simp at hc
  rw [h1] at hc
  simp only [Option.map_some, Option.some.injEq, Prod.mk.injEq] at hc
  obtain ⟨rfl, rfl⟩ := hc
  have hi : Inv h ⟨h, fun _ => none⟩ (fun _ _ => False) :=
    ⟨le_refl _, fun _ _ _ => rfl, fun _ _ hm => by simp at hm, fun _ _ hp => hp.elim, fun _ _ hp => hp.elim, fun _ _ _ hp => hp.elim⟩
  obtain ⟨P, hp, hy⟩ := deepcopy_good hw limit x _ _ y1 s1 hx hi h1
  refine ⟨P, s1, rfl, hp.inv, ?_, hy⟩
  intro a b hab
  rcases hp.done a b hab with hf | ⟨_, hm⟩
  · exact hf.elim
  · exact hm

/-- Changing other cells does not matter. -/
theorem Bisim.change {h h' h2 : List Cell} {P : Rel} {a b : ℕ} (hb : Bisim h h' P) (hr : ∀ x y, P x y → a ≤ y ∧ y < b) (hs : SameIn h' h2 a b) : Bisim h h2 P :=
  fun x y hp => (hb x y hp).mono (fun _ _ hq => hq) (hs y (hr x y hp).1 (hr x y hp).2)

/-- The objects below `h.length` only lead to each other. -/
theorem original_bisim {h h2 : List Cell} (hw : WellFormed h) (hs : SameIn h h2 0 h.length) : Bisim h h2 fun x y => x = y ∧ x < h.length := by
  rintro x y ⟨rfl, hx⟩
  have hc := hs x (Nat.zero_le _) hx
  unfold Match
  rcases hhx : h[x]? with _ | (v | ⟨kind, es⟩ | ⟨c, l⟩)
  · rw [List.getElem?_eq_none_iff] at hhx; omega
  · simp only; rw [hc, hhx]
  · simp only; rw [hc, hhx]
    refine ⟨es, rfl, ?_⟩
    have := hw.entries x _ _ hhx
    rw [List.forall₂_same]
    exact fun e he => ⟨rfl, rfl, this e he⟩
  · simp only; rw [hc, hhx]
    obtain ⟨k, es, hn⟩ := hw.locals x _ _ hhx
    exact ⟨l, rfl, rfl, (List.getElem?_eq_some_iff.mp hn).1⟩

/-! ## Theorems -/

/-- C155: copying an object always ends, whatever objects refer to each other, with a depth of recursion of at most twice the number of objects (plus 2). -/
theorem C155_completes {limit : ℕ} {h : List Cell} {x : ℕ} (hw : WellFormed h) (hx : x < h.length) (hl : 2 * h.length + 2 ≤ limit) : copyOf limit h x ≠ none := by
  classical
  have hi : Inv h ⟨h, fun _ => none⟩ (fun _ _ => False) :=
    ⟨le_refl _, fun _ _ _ => rfl, fun _ _ hm => by simp at hm, fun _ _ hp => hp.elim, fun _ _ hp => hp.elim, fun _ _ _ hp => hp.elim⟩
  have hcard : (todo h fun _ => none).card ≤ h.length := by
    refine le_trans (Finset.card_filter_le _ _) ?_
    simp
  have := deepcopy_some hw limit x _ _ hx hi (by simp only; split_ifs <;> omega)
  unfold copyOf
  rcases h1 : deepcopy limit x ⟨h, fun _ => none⟩ with _ | r
  · exact absurd h1 this
  · simp

/-- C155: a deep copy changes none of the existing objects, and every attribute path reads from the copy what it read from the original when it was copied (lazy values are
evaluated, and evaluations that never end do not end either), whatever happens later to the objects that existed before, or to objects made after the copy. -/
theorem C155_copy {limit : ℕ} {h h' : List Cell} {x y : ℕ} (hw : WellFormed h) (hx : x < h.length) (hc : copyOf limit h x = some (y, h')) :
    SameIn h h' 0 h.length ∧ h.length ≤ y ∧ y < h'.length ∧
      ∀ h2, SameIn h' h2 h.length h'.length → ∀ depth path, look h2 depth y path = look h depth x path := by
  obtain ⟨P, s, rfl, hi, hb, hp⟩ := copyOf_bisim hw hx hc
  refine ⟨hi.old, (hi.rng x y hp).2.1, (hi.rng x y hp).2.2, fun h2 hs d p => ?_⟩
  exact (hb.change (fun a b hab => (hi.rng a b hab).2) hs).look d x y p hp

/-- C155: whatever is done to the copy (or to other new objects), every attribute path of the original (and of every other object that existed) reads what it read before. -/
theorem C155_original {limit : ℕ} {h h' : List Cell} {x y : ℕ} (hw : WellFormed h) (hx : x < h.length) (hc : copyOf limit h x = some (y, h')) :
    ∀ h2, SameIn h' h2 0 h.length → ∀ z < h.length, ∀ depth path, look h2 depth z path = look h depth z path := by
  intro h2 hs z hz d p
  obtain ⟨P, s, rfl, hi, _, _⟩ := copyOf_bisim hw hx hc
  have : SameIn h h2 0 h.length := fun j h0 hj => by rw [hs j h0 hj, hi.old j h0 hj]
  exact (original_bisim hw this).look d z z p ⟨rfl, hz⟩

/-- C155: the copy has the same paths as the original and they lead to new objects only, also through the names that lazy values use; two paths lead to the same object of the
copy if and only if they lead to the same object of the original (lazy values themselves excepted: one that is used in two places may be copied twice). -/
theorem C155_sharing {limit : ℕ} {h h' : List Cell} {x y : ℕ} (hw : WellFormed h) (hx : x < h.length) (hc : copyOf limit h x = some (y, h')) :
    (∀ p, (follow h' y p).isSome = (follow h x p).isSome) ∧ (∀ p a', follow h' y p = some a' → h.length ≤ a' ∧ a' < h'.length) ∧
      ∀ p q a b a' b', follow h x p = some a → follow h x q = some b → follow h' y p = some a' → follow h' y q = some b' →
        (a' = b' → a = b) ∧ (a = b → ¬ IsLazy h a → a' = b') := by
  obtain ⟨P, s, rfl, hi, hb, hp⟩ := copyOf_bisim hw hx hc
  refine ⟨fun p => ?_, fun p a' ha' => ?_, fun p q a b a' b' h1 h2 h3 h4 => ?_⟩
  · rcases hb.follow p x y hp with ⟨h1, h2⟩ | ⟨z, z', h1, h2, _⟩ <;> rw [h1, h2]
    rfl
  · rcases hb.follow p x y hp with ⟨h1, h2⟩ | ⟨z, z', h1, h2, h3⟩
    · rw [h2] at ha'; simp at ha'
    · rw [h2] at ha'
      simp only [Option.some.injEq] at ha'
      subst ha'
      exact (hi.rng _ _ h3).2
  · have hpa : P a a' := by
      rcases hb.follow p x y hp with ⟨h5, h6⟩ | ⟨z, z', h5, h6, h7⟩
      · rw [h5] at h1; simp at h1
      · rw [h5] at h1; rw [h6] at h3
        simp only [Option.some.injEq] at h1 h3
        subst h1 h3; exact h7
    have hpb : P b b' := by
      rcases hb.follow q x y hp with ⟨h5, h6⟩ | ⟨z, z', h5, h6, h7⟩
      · rw [h5] at h2; simp at h2
      · rw [h5] at h2; rw [h6] at h4
        simp only [Option.some.injEq] at h2 h4
        subst h2 h4; exact h7
    refine ⟨fun hab => ?_, fun hab hl => ?_⟩
    · subst hab; exact hi.inj a b a' hpa hpb
    · subst hab
      have h5 := hi.tot a a' hpa hl
      have h6 := hi.tot a b' hpb hl
      rw [h5] at h6
      simpa using h6

/-- C155: in a deep copy of a whole configuration, lazy values whose name `mp` is the configuration see the copy under the name `mp`, at any depth: `path` leads to the value. -/
theorem C155_whole {limit : ℕ} {h h' : List Cell} {x y : ℕ} (hw : WellFormed h) (hx : x < h.length) (hc : copyOf limit h x = some (y, h')) (hn : ¬ IsLazy h x) {path : List Step}
    (hp : follow h x (path ++ [.locals, .field "mp"]) = some x) : follow h' y (path ++ [.locals, .field "mp"]) = some y := by
  obtain ⟨h1, _, h3⟩ := C155_sharing hw hx hc
  have h4 := h1 (path ++ [.locals, .field "mp"])
  rw [hp] at h4
  rcases h5 : follow h' y (path ++ [.locals, .field "mp"]) with _ | z
  · rw [h5] at h4; simp at h4
  · rw [h5, (h3 _ [] x x z y hp rfl h5 rfl).2 rfl hn]

/-- The lazy value `mp.dm1.width` of a configuration. -/
example : follow [.node "ModelParameters" [("dm1", 1)], .node "Object" [("width", 2)], .lazy (.ret 1) 3, .node "dict" [("mp", 0)]] 0
    ([.field "dm1", .field "width"] ++ [.locals, .field "mp"]) = some 0 := by rfl

/-! ### `mp.dm1.compact` -/

/-- `h` after `dm.compact = Object()`. -/
def withEmptyCompact (h : List Cell) (dm : ℕ) (kind : String) (es : List (String × ℕ)) : List Cell :=
  h.set dm (.node kind (("compact", h.length) :: es.filter fun e => e.1 ≠ "compact")) ++ [.node "Object" []]

theorem setField_node {h : List Cell} {o : ℕ} {kind : String} {es : List (String × ℕ)} (hn : h[o]? = some (Cell.node kind es)) (name : String) (v : ℕ) :
    setField h o name v = h.set o (.node kind ((name, v) :: es.filter fun e => e.1 ≠ name)) := by
  unfold setField; rw [hn]

theorem makeCompact_eq {limit : ℕ} {h h' : List Cell} {dm y : ℕ} {kind : String} {es : List (String × ℕ)} (hn : h[dm]? = some (Cell.node kind es))
    (hc : makeCompact limit h dm = some (y, h')) :
    ∃ h1, copyOf limit (withEmptyCompact h dm kind es) dm = some (y, h1) ∧ h' = setField h1 dm "compact" y := by
  have hd : dm < h.length := (List.getElem?_eq_some_iff.mp hn).1
  have h0 : setField (h ++ [.node "Object" []]) dm "compact" h.length = withEmptyCompact h dm kind es := by
    rw [setField_node (by rw [List.getElem?_append_left hd]; exact hn)]
    unfold withEmptyCompact
    rw [List.set_append_left _ _ hd]
  unfold makeCompact at hc
  rw [h0] at hc
  rcases h2 : copyOf limit (withEmptyCompact h dm kind es) dm with _ | ⟨y1, h1⟩
  · rw [h2] at hc; simp at hc
  · rw [h2] at hc
    simp only [Option.some.injEq, Prod.mk.injEq] at hc
    obtain ⟨rfl, rfl⟩ := hc
    exact ⟨h1, rfl, rfl⟩

theorem withEmptyCompact_get {h : List Cell} {dm : ℕ} {kind : String} {es : List (String × ℕ)} (hd : dm < h.length) (x : ℕ) :
    (withEmptyCompact h dm kind es)[x]? = if x = dm then some (.node kind (("compact", h.length) :: es.filter fun e => e.1 ≠ "compact"))
      else if x = h.length then some (.node "Object" []) else h[x]? := by
  unfold withEmptyCompact
  by_cases h1 : x = dm
  · subst h1
    rw [if_pos rfl, List.getElem?_append_left (by simpa using hd), List.getElem?_set_self hd]
  · rw [if_neg h1]
    by_cases h2 : x = h.length
    · subst h2
      rw [if_pos rfl, List.getElem?_append_right (by simp)]; simp
    · rw [if_neg h2]
      by_cases h3 : x < h.length
      · rw [List.getElem?_append_left (by simpa using h3), List.getElem?_set_ne (Ne.symm h1)]
      · have h4 : h.length < x := by omega
        rw [List.getElem?_eq_none_iff.mpr (by simp; omega), List.getElem?_eq_none_iff.mpr (by omega)]

theorem lookup_filter_ne {f : String} (hf : f ≠ "compact") (l : List (String × ℕ)) : (l.filter fun e => e.1 ≠ "compact").lookup f = l.lookup f := by
  induction l with
  | nil => rfl
  | cons e l ih =>
    obtain ⟨k, v⟩ := e
    by_cases hk : k = "compact"
    · subst hk
      have : (f == "compact") = false := by simpa using hf
      simp only [List.filter_cons, ne_eq, not_true_eq_false, decide_false, Bool.false_eq_true, if_false, List.lookup_cons, this]
      exact ih
    · simp only [List.filter_cons, ne_eq, hk, not_false_eq_true, decide_true, if_true, List.lookup_cons]
      rw [← ih]

/-- Where the last step leads. -/
theorem follow_field {h : List Cell} {x z : ℕ} {f : String} {p : List Step} (hx : follow h x (.field f :: p) = some z) :
    ∃ kind es w, h[x]? = some (Cell.node kind es) ∧ es.lookup f = some w ∧ follow h w p = some z := by
  unfold follow at hx
  split at hx
  · next k es hn =>
    split at hx
    · next w hw => exact ⟨k, es, w, hn, hw, hx⟩
    · simp at hx
  · simp at hx

theorem follow_locals {h : List Cell} {x z : ℕ} {p : List Step} (hx : follow h x (.locals :: p) = some z) :
    ∃ c l, h[x]? = some (Cell.lazy c l) ∧ follow h l p = some z := by
  unfold follow at hx
  split at hx
  · next c l hn => exact ⟨c, l, hn, hx⟩
  · simp at hx

theorem withEmptyCompact_wf {h : List Cell} {dm : ℕ} {kind : String} {es : List (String × ℕ)} (hw : WellFormed h) (hn : h[dm]? = some (Cell.node kind es)) :
    WellFormed (withEmptyCompact h dm kind es) := by
  have hd : dm < h.length := (List.getElem?_eq_some_iff.mp hn).1
  have hlen : (withEmptyCompact h dm kind es).length = h.length + 1 := by simp [withEmptyCompact]
  constructor
  · intro x k es' hx e he
    rw [hlen]
    rw [withEmptyCompact_get hd] at hx
    split_ifs at hx with h1 h2
    · simp only [Option.some.injEq, Cell.node.injEq] at hx
      obtain ⟨_, rfl⟩ := hx
      rcases List.mem_cons.mp he with rfl | he
      · simp
      · have := hw.entries dm _ _ hn e (List.mem_filter.mp he).1; omega
    · simp only [Option.some.injEq, Cell.node.injEq] at hx
      obtain ⟨_, rfl⟩ := hx
      simp at he
    · have := hw.entries x _ _ hx e he; omega
  · intro x c l hx
    rw [withEmptyCompact_get hd] at hx
    split_ifs at hx with h1 h2
    · simp at hx
    · simp at hx
    · obtain ⟨k, es', hl⟩ := hw.locals x c l hx
      rw [withEmptyCompact_get hd]
      split_ifs
      · exact ⟨_, _, rfl⟩
      · exact ⟨_, _, rfl⟩
      · exact ⟨k, es', hl⟩

/-- C155: after `mp.dm1.compact = Object(); mp.dm1.compact = deepcopy(mp.dm1)` the field `compact` is a new object from which every attribute path reads what it read from
`mp.dm1` at that time (with an empty object as `compact`), whatever is changed in `mp`, `mp.dm1` or anything else that existed: later changes of the configuration do not reach the
lazy values of `mp.dm1.compact`. -/
theorem C155_compact {limit : ℕ} {h h' : List Cell} {dm y : ℕ} {kind : String} {es : List (String × ℕ)} (hw : WellFormed h) (hn : h[dm]? = some (Cell.node kind es))
    (hc : makeCompact limit h dm = some (y, h')) :
    follow h' dm [.field "compact"] = some y ∧ h.length < y ∧ y < h'.length ∧
      (∀ f, f ≠ "compact" → follow h' dm [.field f] = follow h dm [.field f]) ∧
      (∀ x < h.length, x ≠ dm → h'[x]? = h[x]?) ∧
      ∀ h2, SameIn h' h2 (h.length + 1) h'.length → ∀ depth path, look h2 depth y path = look (withEmptyCompact h dm kind es) depth dm path := by
  have hd : dm < h.length := (List.getElem?_eq_some_iff.mp hn).1
  obtain ⟨h1, hcp, rfl⟩ := makeCompact_eq hn hc
  have hlen : (withEmptyCompact h dm kind es).length = h.length + 1 := by simp [withEmptyCompact]
  obtain ⟨hsame, hy1, hy2, hlook⟩ := C155_copy (withEmptyCompact_wf hw hn) (by rw [hlen]; omega) hcp
  rw [hlen] at hsame hy1 hlook
  have hcell := hsame dm (Nat.zero_le _) (by omega)
  rw [withEmptyCompact_get hd, if_pos rfl] at hcell
  rw [setField_node hcell]
  have hd1 : dm < h1.length := (List.getElem?_eq_some_iff.mp hcell).1
  refine ⟨?_, by omega, by simpa using hy2, ?_, ?_, ?_⟩
  · simp [follow, List.getElem?_set_self hd1]
  · intro f hf
    have hb : (f == "compact") = false := by simpa using hf
    have e1 : (("compact", y) :: (("compact", h.length) :: es.filter fun e => e.1 ≠ "compact").filter fun e => e.1 ≠ "compact").lookup f = es.lookup f := by
      rw [List.lookup_cons, hb]
      simp only
      rw [lookup_filter_ne hf, List.lookup_cons, hb]
      exact lookup_filter_ne hf es
    unfold follow
    rw [List.getElem?_set_self hd1, hn]
    simp only
    rw [e1]
    cases es.lookup f <;> simp [follow]
  · intro x hx hne
    rw [List.getElem?_set_ne (Ne.symm hne), hsame x (Nat.zero_le _) (by omega), withEmptyCompact_get hd, if_neg hne, if_neg (by omega)]
  · intro h2 hs
    refine hlook h2 fun x hx hx2 => ?_
    rw [hs x hx (by simpa using hx2), List.getElem?_set_ne (by omega)]

/-- C155: a lazy value of `mp.dm1` that reads `mp.dm1...` (its name `mp` leads to the configuration, and this by `dm1` to the DM) has a counterpart in `mp.dm1.compact` that reads
`mp.dm1.compact` under the name `mp.dm1`, and a copy of the configuration, not the configuration, under the name `mp`. -/
theorem C155_compact_sees_itself {limit : ℕ} {h h' : List Cell} {dm y l m : ℕ} {kind : String} {es : List (String × ℕ)} {f dmName : String}
    (hw : WellFormed h) (hn : h[dm]? = some (Cell.node kind es)) (hc : makeCompact limit h dm = some (y, h')) (hf : f ≠ "compact")
    (h1 : follow h dm [.field f, .locals] = some l) (hl : l ≠ dm) (h2 : follow h l [.field "mp"] = some m) (hm : m ≠ dm) (h3 : follow h m [.field dmName] = some dm) :
    ∃ m', follow h' y [.field f, .locals, .field "mp"] = some m' ∧ m' ≠ m ∧ h.length < m' ∧ follow h' m' [.field dmName] = some y := by
  have hdm : dm < h.length := (List.getElem?_eq_some_iff.mp hn).1
  obtain ⟨hcomp, hy0, _, hfield, hkeep, _⟩ := C155_compact hw hn hc
  obtain ⟨hh1, hcp, rfl⟩ := makeCompact_eq hn hc
  have hlen : (withEmptyCompact h dm kind es).length = h.length + 1 := by simp [withEmptyCompact]
  obtain ⟨P, s, hs, hi, hb, hp⟩ := copyOf_bisim (withEmptyCompact_wf hw hn) (by rw [hlen]; omega) hcp
  subst hs
  have hcell := hi.old dm (Nat.zero_le _) (by rw [hlen]; omega)
  rw [withEmptyCompact_get hdm, if_pos rfl] at hcell
  -- all copies are unchanged by the last assignment
  have hb' : Bisim (withEmptyCompact h dm kind es) (setField s.heap dm "compact" y) P := by
    refine hb.change (a := h.length + 1) (b := s.heap.length) (fun a b hab => by have := (hi.rng a b hab).2; rw [hlen] at this; exact this) ?_
    intro x hx _
    rw [setField_node hcell, List.getElem?_set_ne (by omega)]
  have hget : ∀ x, x ≠ dm → x < h.length → (withEmptyCompact h dm kind es)[x]? = h[x]? := fun x hx hx' => by
    rw [withEmptyCompact_get hdm, if_neg hx, if_neg (by omega)]
  have hlt : ∀ {x : ℕ} {c : Cell}, h[x]? = some c → x < h.length := fun hx => (List.getElem?_eq_some_iff.mp hx).1
  have hdl : (withEmptyCompact h dm kind es)[dm]? = some (.node kind (("compact", h.length) :: es.filter fun e => e.1 ≠ "compact")) := by
    rw [withEmptyCompact_get hdm, if_pos rfl]
  obtain ⟨k0, es0, w, g1, g2, g3⟩ := follow_field h1
  rw [hn] at g1
  simp only [Option.some.injEq, Cell.node.injEq] at g1
  obtain ⟨rfl, rfl⟩ := g1
  obtain ⟨c, l0, g4, g5⟩ := follow_locals g3
  simp only [follow, Option.some.injEq] at g5
  subst g5
  obtain ⟨k1, es1, m0, g6, g7, g8⟩ := follow_field h2
  simp only [follow, Option.some.injEq] at g8
  subst g8
  obtain ⟨k2, es2, d0, g9, g10, g11⟩ := follow_field h3
  simp only [follow, Option.some.injEq] at g11
  subst g11
  have hwne : w ≠ d0 := by rintro rfl; rw [hn] at g4; simp at g4
  have hbf : (f == "compact") = false := by simpa using hf
  have e1 : follow (withEmptyCompact h d0 kind es) d0 [.field f, .locals, .field "mp"] = some m0 := by
    have hlk : (("compact", h.length) :: es.filter fun e => e.1 ≠ "compact").lookup f = some w := by
      rw [List.lookup_cons, hbf]
      exact (lookup_filter_ne hf es).trans g2
    unfold follow; rw [hdl]; simp only; rw [hlk]; simp only
    unfold follow; rw [hget w hwne (hlt g4), g4]; simp only
    unfold follow; rw [hget l0 hl (hlt g6), g6]; simp only; rw [g7]; simp only
    rfl
  have e2 : follow (withEmptyCompact h d0 kind es) m0 [.field dmName] = some d0 := by
    unfold follow; rw [hget m0 hm (hlt g9), g9]; simp only; rw [g10]; simp only
    rfl
  rcases hb'.follow _ d0 y hp with ⟨a1, _⟩ | ⟨z, m', a1, a2, a3⟩
  · rw [a1] at e1; simp at e1
  rw [a1] at e1
  simp only [Option.some.injEq] at e1
  subst e1
  rcases hb'.follow _ z m' a3 with ⟨b1, _⟩ | ⟨z', d', b1, b2, b3⟩
  · rw [b1] at e2; simp at e2
  rw [b1] at e2
  simp only [Option.some.injEq] at e2
  subst e2
  have hr := hi.rng _ _ a3
  rw [hlen] at hr
  have hnl : ¬ IsLazy (withEmptyCompact h z' kind es) z' := by rintro ⟨c', l', hc'⟩; rw [hdl] at hc'; simp at hc'
  have h5 := hi.tot _ _ b3 hnl
  have h6 := hi.tot _ _ hp hnl
  rw [h5] at h6
  simp only [Option.some.injEq] at h6
  subst h6
  exact ⟨m', a2, by have := hlt g9; omega, by omega, b2⟩

/-! ## Examples -/

/-- `lambda0: 5`, `dm1: {pitch: 7, width: !eval mp.lambda0 + 100, gap: !eval mp.dm1.pitch}` -/
def sample : List Cell :=
  [.node "ModelParameters" [("dm1", 1), ("lambda0", 2)],
   .node "Object" [("pitch", 3), ("width", 4), ("gap", 5)],
   .plain 5,
   .plain 7,
   .lazy (.read ["mp", "lambda0"] fun v => .ret (v.getD 0 + 100)) 6,
   .lazy (.read ["mp", "dm1", "pitch"] fun v => .ret (v.getD 0)) 6,
   .node "dict" [("mp", 0)]]

theorem sample_wf : WellFormed sample := by
  constructor
  · intro x k es hx e he
    have hlt : x < 7 := (List.getElem?_eq_some_iff.mp hx).1
    simp only [sample] at hx ⊢
    interval_cases x <;> simp at hx <;> obtain ⟨rfl, rfl⟩ := hx <;> simp at he <;> rcases he with rfl | rfl | rfl <;> simp
  · intro x c l hx
    have hlt : x < 7 := (List.getElem?_eq_some_iff.mp hx).1
    simp only [sample] at hx ⊢
    interval_cases x <;> simp at hx <;> obtain ⟨rfl, rfl⟩ := hx <;> exact ⟨_, _, rfl⟩

example : look sample 5 1 ["width"] = some (.value 105) := by rfl
example : look sample 7 1 ["gap"] = some (.value 7) := by rfl

/-- The copy of `mp.dm1` can be made, and reads the same. -/
example : ∃ y h', copyOf 20 sample 1 = some (y, h') ∧ look h' 5 y ["width"] = some (.value 105) := ⟨7, _, rfl, rfl⟩

/-- C155, violated: a change of the configuration after `mp.dm1.compact` was made reaches the lazy values of `mp.dm1`, but not those of `mp.dm1.compact`. -/
theorem C155_compact_stale_violated : ∃ (h h' : List Cell) (y : ℕ), WellFormed h ∧ makeCompact 20 h 1 = some (y, h') ∧
    look h' 6 1 ["width"] = some (.value 105) ∧ look h' 6 1 ["compact", "width"] = some (.value 105) ∧
    look (h'.set 2 (.plain 6)) 6 1 ["width"] = some (.value 106) ∧ look (h'.set 2 (.plain 6)) 6 1 ["compact", "width"] = some (.value 105) :=
  ⟨sample, _, _, sample_wf, rfl, rfl, rfl, rfl, rfl⟩

/-- The hypotheses of `C155_compact_sees_itself` hold for the field `gap`. -/
example : follow sample 1 [.field "gap", .locals] = some 6 ∧ follow sample 6 [.field "mp"] = some 0 ∧ follow sample 0 [.field "dm1"] = some 1 := ⟨rfl, rfl, rfl⟩

/-- A lazy value used in two places (a yaml alias) becomes two in the copy when `dm1` is copied: the exception in `C155_sharing`. -/
example : ∃ h y h', WellFormed h ∧ copyOf 20 h 1 = some (y, h') ∧ follow h 1 [.field "a"] = follow h 1 [.field "a", .locals, .field "mp", .field "b"] ∧
    follow h' y [.field "a"] ≠ follow h' y [.field "a", .locals, .field "mp", .field "b"] := by
  refine ⟨[.node "ModelParameters" [("b", 2)], .node "Object" [("a", 2)], .lazy (.ret 1) 3, .node "dict" [("mp", 0)]], _, _, ⟨?_, ?_⟩, rfl, rfl, by decide⟩
  · intro x k es hx e he
    have hlt : x < 4 := (List.getElem?_eq_some_iff.mp hx).1
    interval_cases x <;> simp at hx <;> obtain ⟨rfl, rfl⟩ := hx <;> simp at he <;> subst he <;> simp
  · intro x c l hx
    have hlt : x < 4 := (List.getElem?_eq_some_iff.mp hx).1
    interval_cases x <;> simp at hx <;> obtain ⟨rfl, rfl⟩ := hx <;> exact ⟨_, _, rfl⟩

end Verif.DeepCopy
