import Verif.Model.Config
import Mathlib.Logic.Relation
import Mathlib.Data.Finset.Card
import Mathlib.Order.RelClasses
import Mathlib.Tactic.NormNum
import Mathlib.Tactic.Linarith

/-! # C48 lazy configuration values, C49 constructor arguments, C50 validators, C68 field and index syntax -/

namespace Verif.Config
open Relation

/-! ## C48, specification: values without flags or evaluation order -/

section Lazy
variable {V : Type} (cfg : String → Item V)

/-- The expression behind an attribute. -/
def body (c : String) : Prog V :=
  match cfg c with
  | .missing => .fail .attribute
  | .plain v => .ret v
  | .lazy p => p

/-- `Res p r`: expression `p` has result `r`, given the results of the attributes it reads. -/
inductive Res : Prog V → Except Err V → Prop
  | ret (v : V) : Res (.ret v) (.ok v)
  | fail (e : Err) : Res (.fail e) (.error e)
  | readOk {c d k v r} : Res (body cfg c) (.ok v) → Res (k v) r → Res (.read c d k) r
  | readErr {c d k e} : Res (body cfg c) (.error e) → (e = .attribute → d = none) → Res (.read c d k) (.error e)
  | readDflt {c k v r} : Res (body cfg c) (.error .attribute) → Res (k v) r → Res (.read c (some v) k) r

/-- Attribute `c` has result `r`. -/
def Has (c : String) (r : Except Err V) : Prop := Res cfg (body cfg c) r

/-- `Asks p c`: evaluating `p` reads attribute `c`, after reads that had a result. -/
inductive Asks : Prog V → String → Prop
  | here {c d k} : Asks (.read c d k) c
  | ok {c d k v c'} : Has cfg c (.ok v) → Asks (k v) c' → Asks (.read c d k) c'
  | dflt {c k v c'} : Has cfg c (.error .attribute) → Asks (k v) c' → Asks (.read c (some v) k) c'

/-- Evaluating attribute `c` reads attribute `c'`. -/
def Needs (c c' : String) : Prop := Asks cfg (body cfg c) c'

/-! ## Lemmas -/

theorem Res.det {p : Prog V} {r r' : Except Err V} (h : Res cfg p r) (h' : Res cfg p r') : r = r' := by
  induction h generalizing r' with
  | ret v => cases h'; rfl
  | fail e => cases h'; rfl
  | readOk h1 h2 ih1 ih2 =>
    cases h' with
    | readOk g1 g2 => have := ih1 g1; injection this with this; subst this; exact ih2 g2
    | readErr g1 g2 => have := ih1 g1; cases this
    | readDflt g1 g2 => have := ih1 g1; cases this
  | readErr h1 h2 ih1 =>
    cases h' with
    | readOk g1 g2 => have := ih1 g1; cases this
    | readErr g1 g2 => exact ih1 g1
    | readDflt g1 g2 =>
      have := ih1 g1
      injection this with this
      exact absurd (h2 this) (by simp)
  | readDflt h1 h2 ih1 ih2 =>
    cases h' with
    | readOk g1 g2 => have := ih1 g1; cases this
    | readErr g1 g2 =>
      have := ih1 g1
      injection this with this
      exact absurd (g2 this.symm) (by simp)
    | readDflt g1 g2 => exact ih2 g2

theorem Res.acc {p : Prog V} {r : Except Err V} (h : Res cfg p r) : ∀ c', Asks cfg p c' → Acc (fun y x => Needs cfg x y) c' := by
  induction h with
  | ret v => intro c' h; cases h
  | fail e => intro c' h; cases h
  | readOk h1 h2 ih1 ih2 =>
    intro c' h
    cases h with
    | here => exact Acc.intro _ fun y hy => ih1 y hy
    | ok g1 g2 => have := Res.det cfg h1 g1; injection this with this; subst this; exact ih2 c' g2
    | dflt g1 g2 => have := Res.det cfg h1 g1; cases this
  | readErr h1 h2 ih1 =>
    intro c' h
    cases h with
    | here => exact Acc.intro _ fun y hy => ih1 y hy
    | ok g1 g2 => have := Res.det cfg h1 g1; cases this
    | dflt g1 g2 =>
      have := Res.det cfg h1 g1
      injection this with this
      exact absurd (h2 this) (by simp)
  | readDflt h1 h2 ih1 ih2 =>
    intro c' h
    cases h with
    | here => exact Acc.intro _ fun y hy => ih1 y hy
    | ok g1 g2 => have := Res.det cfg h1 g1; cases this
    | dflt g1 g2 => exact ih2 c' g2

theorem acc_reach {c x : String} (h : ReflTransGen (Needs cfg) c x) (ha : Acc (fun y x => Needs cfg x y) c) : Acc (fun y x => Needs cfg x y) x := by
  induction h with
  | refl => exact ha
  | tail _ h2 ih => exact ih.inv h2

theorem acc_no_cycle {x : String} (ha : Acc (fun y x => Needs cfg x y) x) : ¬ TransGen (Needs cfg) x x := by
  induction ha with
  | intro x _ ih =>
    intro h
    obtain ⟨y, h1, h2⟩ := TransGen.head'_iff.1 h
    exact ih y h1 (TransGen.tail' h2 h1)

/-- Whenever an attribute has a result, its evaluation reaches no attribute that reaches itself. -/
theorem has_no_cycle {c : String} {r : Except Err V} (h : Has cfg c r) : ¬ ∃ x, ReflTransGen (Needs cfg) c x ∧ TransGen (Needs cfg) x x := by
  rintro ⟨x, h1, h2⟩
  exact acc_no_cycle cfg (acc_reach cfg h1 (Acc.intro _ fun y hy => Res.acc cfg h y hy)) h2

/-- `c` reaches an attribute that is in progress or reaches itself. -/
def Stuck (s : Flags) (c : String) : Prop := ∃ x, ReflTransGen (Needs cfg) c x ∧ (s x = true ∨ TransGen (Needs cfg) x x)

/-- What a result says about attribute `c`. -/
def Good (s : Flags) (c : String) : Outcome V → Prop
  | .value v => Has cfg c (.ok v)
  | .error e => Has cfg c (.error e)
  | .circular => Stuck cfg s c
  | .recursion => False

/-- What a result says about an expression. -/
def GoodP (s : Flags) (p : Prog V) : Outcome V → Prop
  | .value v => Res cfg p (.ok v)
  | .error e => Res cfg p (.error e)
  | .circular => ∃ c, Asks cfg p c ∧ Stuck cfg s c
  | .recursion => False

theorem runProg_good (rd : String → Flags → Outcome V × Flags) (s : Flags) (hrd : ∀ c, ∃ r, rd c s = (r, s) ∧ Good cfg s c r) :
    ∀ p, ∃ r, runProg rd p s = (r, s) ∧ GoodP cfg s p r
  | .ret v => ⟨_, rfl, Res.ret v⟩
  | .fail e => ⟨_, rfl, Res.fail e⟩
  | .read c d k => by
    obtain ⟨r, h1, h2⟩ := hrd c
    simp only [runProg, h1]
    match r, h2 with
    | .value v, h2 =>
      obtain ⟨r', g1, g2⟩ := runProg_good rd s hrd (k v)
      refine ⟨r', g1, ?_⟩
      match r', g2 with
      | .value _, g2 => exact Res.readOk h2 g2
      | .error _, g2 => exact Res.readOk h2 g2
      | .circular, ⟨c', a, b⟩ => exact ⟨c', Asks.ok h2 a, b⟩
    | .error (.other n), h2 => exact ⟨_, rfl, Res.readErr h2 (by simp)⟩
    | .circular, h2 => exact ⟨_, rfl, c, Asks.here, h2⟩
    | .error .attribute, h2 =>
      match d with
      | none => exact ⟨_, rfl, Res.readErr h2 (fun _ => rfl)⟩
      | some v =>
        obtain ⟨r', g1, g2⟩ := runProg_good rd s hrd (k v)
        refine ⟨r', g1, ?_⟩
        match r', g2 with
        | .value _, g2 => exact Res.readDflt h2 g2
        | .error _, g2 => exact Res.readDflt h2 g2
        | .circular, ⟨c', a, b⟩ => exact ⟨c', Asks.dflt h2 a, b⟩

theorem readAttr_good (L : Finset String) (hL : ∀ c p, cfg c = .lazy p → c ∈ L) : ∀ (limit : ℕ) (s : Flags), (L.filter fun c => s c = false).card < limit →
    ∀ c, ∃ r, readAttr cfg limit c s = (r, s) ∧ Good cfg s c r
  | 0, _, h, _ => absurd h (by omega)
  | limit + 1, s, h, c => by
    simp only [readAttr]
    match hc : cfg c with
    | .missing => exact ⟨_, rfl, by simp only [Good, Has, body, hc]; exact Res.fail _⟩
    | .plain v => exact ⟨_, rfl, by simp only [Good, Has, body, hc]; exact Res.ret _⟩
    | .lazy p =>
      dsimp only
      by_cases hs : s c = true
      · rw [if_pos hs]; exact ⟨_, rfl, c, ReflTransGen.refl, Or.inl hs⟩
      · rw [if_neg hs]
        have hs' : s c = false := by simpa using hs
        have hcard : (L.filter fun x => Function.update s c true x = false).card < limit := by
          have : (L.filter fun x => Function.update s c true x = false) ⊂ L.filter fun x => s x = false := by
            rw [Finset.ssubset_iff_of_subset]
            · refine ⟨c, by simp [hL c p hc, hs'], by simp⟩
            · intro x hx
              rw [Finset.mem_filter] at hx ⊢
              refine ⟨hx.1, ?_⟩
              by_cases hxc : x = c
              · rw [hxc]; exact hs'
              · rw [← hx.2, Function.update_of_ne hxc]
          have := Finset.card_lt_card this
          omega
        obtain ⟨r, h1, h2⟩ := runProg_good cfg _ _ (readAttr_good L hL limit _ hcard) p
        rw [h1]
        have hupd : Function.update (Function.update s c true) c false = s := by
          rw [Function.update_idem, ← hs', Function.update_eq_self]
        refine ⟨r, by rw [hupd], ?_⟩
        have hb : body cfg c = p := by simp only [body, hc]
        match r, h2 with
        | .value _, h2 => exact (by rw [Good, Has, hb]; exact h2)
        | .error _, h2 => exact (by rw [Good, Has, hb]; exact h2)
        | .circular, ⟨c', a, x, b1, b2⟩ =>
          have hn : Needs cfg c c' := by rw [Needs, hb]; exact a
          by_cases hx : x = c
          · subst hx
            exact ⟨x, ReflTransGen.refl, Or.inr (TransGen.head' hn b1)⟩
          · refine ⟨x, ReflTransGen.head hn b1, ?_⟩
            rw [Function.update_of_ne hx] at b2
            exact b2

/-- C48. Let all flags be down, and let Python's recursion limit exceed the number of lazy attributes (a member of `L` each). Reading any attribute
leaves all flags down, whatever happens, so later reads are not affected by it; it returns `v` exactly if `v` is the value of the attribute's
expression given the values of the attributes it reads; it raises an exception of an expression exactly if that is the expression's result;
it raises the ValueError exactly if its evaluation reaches an attribute whose evaluation reaches itself; and these are all cases. -/
theorem C48_lazy (L : Finset String) (hL : ∀ c p, cfg c = .lazy p → c ∈ L) (limit : ℕ) (hlim : L.card < limit) (c : String) :
    ∃ r, readAttr cfg limit c (fun _ => false) = (r, fun _ => false) ∧
      (∀ v, r = .value v ↔ Has cfg c (.ok v)) ∧ (∀ e, r = .error e ↔ Has cfg c (.error e)) ∧
      (r = .circular ↔ ∃ x, ReflTransGen (Needs cfg) c x ∧ TransGen (Needs cfg) x x) ∧
      ((∃ v, r = .value v) ∨ (∃ e, r = .error e) ∨ r = .circular) := by
  obtain ⟨r, h1, h2⟩ := readAttr_good cfg L hL limit (fun _ => false) (lt_of_le_of_lt (Finset.card_filter_le _ _) hlim) c
  refine ⟨r, h1, ?_⟩
  match r, h2 with
  | .value v, h2 =>
    refine ⟨fun w => ⟨fun h => by injection h with h; subst h; exact h2, fun h => ?_⟩, fun e => ⟨fun h => (by cases h), fun h => ?_⟩, ⟨fun h => (by cases h), fun h => ?_⟩, Or.inl ⟨v, rfl⟩⟩
    · have := Res.det cfg h2 h; injection this with this; rw [this]
    · have := Res.det cfg h2 h; cases this
    · exact absurd h (has_no_cycle cfg h2)
  | .error e, h2 =>
    refine ⟨fun w => ⟨fun h => (by cases h), fun h => ?_⟩, fun e' => ⟨fun h => by injection h with h; subst h; exact h2, fun h => ?_⟩, ⟨fun h => (by cases h), fun h => ?_⟩, Or.inr (Or.inl ⟨e, rfl⟩)⟩
    · have := Res.det cfg h2 h; cases this
    · have := Res.det cfg h2 h; injection this with this; rw [this]
    · exact absurd h (has_no_cycle cfg h2)
  | .circular, h2 =>
    have hcyc : ∃ x, ReflTransGen (Needs cfg) c x ∧ TransGen (Needs cfg) x x := by
      obtain ⟨x, a, b⟩ := h2
      exact ⟨x, a, b.resolve_left (by simp)⟩
    exact ⟨fun w => ⟨fun h => (by cases h), fun h => absurd hcyc (has_no_cycle cfg h)⟩, fun e => ⟨fun h => (by cases h), fun h => absurd hcyc (has_no_cycle cfg h)⟩,
      ⟨fun _ => hcyc, fun _ => rfl⟩, Or.inr (Or.inr rfl)⟩

end Lazy

/-- An example: `b` is lazily `a + 1`, `c` and `d` refer to each other, `e` reads `b` twice and `x`, missing, with a default. -/
def exampleCfg : String → Item ℕ
  | "a" => .plain 5
  | "b" => .lazy (.read "a" none fun v => .ret (v + 1))
  | "c" => .lazy (.read "d" none fun v => .ret v)
  | "d" => .lazy (.read "c" none fun v => .ret v)
  | "e" => .lazy (.read "b" none fun v => .read "b" none fun w => .read "x" (some 100) fun u => .ret (u + v + w))
  | _ => .missing

/-- The example meets the hypotheses of `C48_lazy` and has values, a cycle and a default. -/
example : (∀ c p, exampleCfg c = .lazy p → c ∈ ({"b", "c", "d", "e"} : Finset String)) ∧
    (readAttr exampleCfg 5 "e" fun _ => false).1 = .value 112 ∧ (readAttr exampleCfg 5 "c" fun _ => false).1 = .circular ∧
    Has exampleCfg "e" (.ok 112) := by
  have hb : Has exampleCfg "b" (.ok 6) := Res.readOk (c := "a") (v := 5) (Res.ret 5) (Res.ret 6)
  refine ⟨fun c p h => ?_, rfl, rfl, ?_⟩
  · unfold exampleCfg at h
    split at h <;> first | (cases h; done) | simp
  · exact Res.readOk hb (Res.readOk hb (Res.readDflt (c := "x") (Res.fail .attribute) (Res.ret _)))

/-! ## C49 -/

/-- The value at a path of keys below nested dictionaries. -/
def lookup : Val → List String → Option Val
  | v, [] => some v
  | .dict f, k :: ks => (f k).bind fun v => lookup v ks
  | _, _ :: _ => none

/-- Below the dictionary `f` the path leads to a key that is missing (rather than to a value or through something that is not a dictionary). -/
def Silent : (String → Option Val) → List String → Prop
  | _, [] => False
  | f, k :: ks => f k = none ∨ ∃ g, f k = some (.dict g) ∧ Silent g ks

/-- The configuration held by an object. -/
def dataOf : Val → Val
  | .obj _ data => .dict data
  | v => v

theorem merge_lookup_atom : ∀ (path : List String) (a b : Val) (n : ℕ), lookup a path = some (.atom n) → lookup (merge a b) path = some (.atom n)
  | [], a, b, n, h => by
    simp only [lookup, Option.some.injEq] at h ⊢
    subst h
    rw [merge.eq_def]
  | k :: ks, a, b, n, h => by
    match a, h with
    | .dict f, h =>
      match b with
      | .dict g =>
        simp only [merge, lookup] at h ⊢
        match hf : f k, h with
        | some v, h =>
          simp only [Option.bind_some] at h
          match g k with
          | some w => simp only [mergeOpt, Option.bind_some]; exact merge_lookup_atom ks v w n h
          | none => simp only [mergeOpt, Option.bind_some]; exact h
      | .atom _ => simpa [merge] using h
      | .list _ => simpa [merge] using h
      | .obj _ _ => simpa [merge] using h

theorem merge_lookup_silent : ∀ (path : List String) (f g : String → Option Val), Silent f path →
    lookup (.dict fun k => mergeOpt (f k) (g k)) path = lookup (.dict g) path ∨ lookup (.dict g) path = none
  | [], f, g, h => h.elim
  | k :: ks, f, g, h => by
    simp only [lookup]
    rcases h with h | ⟨f', h, hs⟩
    · left; rw [h]; rfl
    · rw [h]
      match hg : g k with
      | none => right; rfl
      | some (.dict g') =>
        simp only [mergeOpt, merge, Option.bind_some]
        exact merge_lookup_silent ks f' g' hs
      | some (.atom n) =>
        match ks, hs with
        | k' :: ks', hs => right; rfl
      | some (.list n) =>
        match ks, hs with
        | k' :: ks', hs => right; rfl
      | some (.obj _ _) =>
        match ks, hs with
        | k' :: ks', hs => right; rfl

theorem merge_lookup_source : ∀ (path : List String) (a b : Val) (n : ℕ), lookup (merge a b) path = some (.atom n) →
    lookup a path = some (.atom n) ∨ lookup b path = some (.atom n)
  | [], a, b, n, h => by
    rw [merge.eq_def] at h
    split at h
    · simp [lookup] at h
    · simp [lookup] at h
    · exact Or.inl h
  | k :: ks, a, b, n, h => by
    rw [merge.eq_def] at h
    split at h
    · rename_i f g
      simp only [lookup] at h ⊢
      match hf : f k, hg : g k with
      | none, x => rw [hf, hg] at h; right; exact h
      | some v, none => rw [hf, hg] at h; left; exact h
      | some v, some w =>
        rw [hf, hg] at h
        simp only [mergeOpt, Option.bind_some] at h ⊢
        exact merge_lookup_source ks v w n h
    · simp [lookup] at h
    · exact Or.inl h

/-- C49. For every default and keyword argument, at every nesting level of dictionaries: a leaf given in the arguments has the given
value; a default leaf is kept if the arguments are silent about it; and every leaf comes from the arguments or the defaults. But lists are
concatenated (`C49_list_violated`), nested objects are not merged (`C49_object_violated`), and the caller's nested dictionaries change
(`C49_arguments_violated`). -/
theorem C49_override (defaults kwargs : String → Option Val) (k : String) (path : List String) (n : ℕ) :
    (lookup (.dict kwargs) (k :: path) = some (.atom n) → lookup (dataOf (construct defaults kwargs)) (k :: path) = some (.atom n)) ∧
    (Silent kwargs (k :: path) → lookup (.dict defaults) (k :: path) = some (.atom n) → lookup (dataOf (construct defaults kwargs)) (k :: path) = some (.atom n)) ∧
    (lookup (dataOf (construct defaults kwargs)) (k :: path) = some (.atom n) →
      lookup (.dict kwargs) (k :: path) = some (.atom n) ∨ lookup (.dict defaults) (k :: path) = some (.atom n)) := by
  have hm : dataOf (construct defaults kwargs) = merge (.dict kwargs) (.dict defaults) := by simp only [dataOf, construct, merge]
  rw [hm]
  refine ⟨merge_lookup_atom _ _ _ n, fun hs hd => ?_, merge_lookup_source _ _ _ n⟩
  rcases merge_lookup_silent (k :: path) kwargs defaults hs with h | h
  · rw [merge, h]; exact hd
  · rw [h] at hd; cases hd

/-- C49: a list given for a parameter whose default is a list does not replace the default: both are concatenated. -/
theorem C49_list_violated (defaults kwargs : String → Option Val) (k : String) (l l' : List ℕ) (hk : k ≠ "data") (hd : defaults k = some (.list l')) (h : kwargs k = some (.list l)) :
    getAttr (construct defaults kwargs) k = .ok (.list (l ++ l')) := by
  simp [getAttr, construct, h, hd, mergeOpt, merge, hk]

/-- C49: with no `dm1` argument the default of `mp.dm1.Dstop` is there. With an object for `dm1` that does not mention `Dstop` (as every
mapping of a yaml file is), reading `mp.dm1.Dstop` raises AttributeError; likewise for the other five defaults of `dm1`. -/
theorem C49_object_violated (kwargs attrs data : String → Option Val) (name : String) (hname : name ≠ "data") (ha : attrs name = none) (hd : data name = none) :
    (kwargs "dm1" = none → (getAttr (modelParameters kwargs) "dm1" >>= fun d => getAttr d "Dstop") = .ok (.atom 0)) ∧
    (kwargs "dm1" = some (.obj attrs data) → (getAttr (modelParameters kwargs) "dm1" >>= fun d => getAttr d name) = .error .attributeError) := by
  constructor
  · intro h
    simp [getAttr, modelParameters, construct, h, mergeOpt, baseDm1, bind, Except.bind]
  · intro h
    simp [getAttr, modelParameters, construct, h, mergeOpt, merge, bind, Except.bind, ha, hd, hname]

/-- C49: the constructor changes the caller's nested dictionary: every key the default has and the argument lacks is added to it. -/
theorem C49_arguments_violated (defaults kwargs f g : String → Option Val) (k x : String) (v : Val) (hk : kwargs k = some (.dict f)) (hd : defaults k = some (.dict g))
    (hf : f x = none) (hg : g x = some v) : ∃ f', kwargsAfter defaults kwargs k = some (.dict f') ∧ f' x = some v := by
  refine ⟨fun y => mergeOpt (f y) (g y), ?_, by simp only [hf, hg]; rfl⟩
  simp only [kwargsAfter, hk]
  rw [hd]
  simp only [mergeOpt, merge]

/-- Nested dictionaries with overridden, kept and new leaves. -/
example : ∃ defaults kwargs : String → Option Val,
    lookup (.dict kwargs) ["a", "b"] = some (.atom 1) ∧ lookup (.dict defaults) ["a", "b"] = some (.atom 2) ∧
    Silent kwargs ["a", "c"] ∧ lookup (.dict defaults) ["a", "c"] = some (.atom 3) := by
  refine ⟨fun k => if k = "a" then some (.dict fun k => if k = "b" then some (.atom 2) else some (.atom 3)) else none,
    fun k => if k = "a" then some (.dict fun k => if k = "b" then some (.atom 1) else none) else none, by simp [lookup], by simp [lookup], ?_, by simp [lookup]⟩
  right
  exact ⟨_, rfl, Or.inl rfl⟩

/-! ## C68 -/

/-- Operations of a program on one configuration object that do not use field assignment. -/
inductive IndexOps : Val → Val → Prop
  | refl (o : Val) : IndexOps o o
  | set {o o' : Val} (name : String) (v : Val) : IndexOps o o' → IndexOps o (setItem o' name v)
  | get {o o' : Val} (name : String) : name ≠ "data" → IndexOps o o' → IndexOps o (getItem o' name).2

/-- C68: after construction and any sequence of index assignments and index reads of names other than `data`, `obj.name` and
`obj['name']` give the same result. Excluded are field assignments (`C68_field_violated`) and `obj['data']` (`C68_data_violated`). -/
theorem C68_same (defaults kwargs : String → Option Val) (o : Val) (h : IndexOps (construct defaults kwargs) o) (name : String) (hn : name ≠ "data") :
    (getItem o name).1 = getAttr o name ∧ (getItem o name).2 = o := by
  have hno : ∃ data, o = .obj (fun _ => none) data := by
    induction h with
    | refl => exact ⟨_, rfl⟩
    | set name v _ ih => obtain ⟨d, rfl⟩ := ih; exact ⟨_, rfl⟩
    | get name hname _ ih =>
      obtain ⟨d, rfl⟩ := ih
      refine ⟨d, ?_⟩
      simp only [getItem, if_neg hname]
      split <;> rfl
  obtain ⟨data, rfl⟩ := hno
  simp only [getItem, if_neg hn, getAttr]
  split <;> exact ⟨rfl, rfl⟩

/-- C68: for every object, after `obj.name = v` the index syntax still gives what it gave before, and a later `obj['name'] = w` is not seen by the field
syntax, which keeps giving `v`. -/
theorem C68_field_violated (attrs data : String → Option Val) (name : String) (v w : Val) :
    (getItem (setAttr (.obj attrs data) name v) name).1 = (getItem (.obj attrs data) name).1 ∧
    getAttr (setAttr (.obj attrs data) name v) name = .ok v ∧
    getAttr (setItem (setAttr (.obj attrs data) name v) name w) name = .ok v ∧
    (name ≠ "data" → (getItem (setItem (setAttr (.obj attrs data) name v) name w) name).1 = .ok w) := by
  refine ⟨?_, by simp [getAttr, setAttr], by simp [getAttr, setAttr, setItem], fun hn => by simp [getItem, setAttr, setItem, hn]⟩
  simp only [getItem, setAttr]
  by_cases hn : name = "data"
  · simp [hn]
  · rw [if_neg hn, if_neg hn]; split <;> rfl

/-- C68: reading `obj['data']` deletes all parameters of an object: afterwards every parameter that was not set with field syntax is missing. -/
theorem C68_data_violated (attrs data : String → Option Val) (name : String) (hn : name ≠ "data") (ha : attrs name = none) :
    getAttr (getItem (.obj attrs data) "data").2 name = .error .attributeError := by
  simp [getItem, getAttr, ha, hn]

/-- A non-trivial case: the object has the parameter before. -/
example : getAttr (construct (fun _ => none) fun k => if k = "Nitr" then some (.atom 5) else none) "Nitr" = .ok (.atom 5) := by
  simp [getAttr, construct, mergeOpt]

/-! ## C50 -/

/-- `v` is a real number for which `P` holds, `P` being given on the finite values, and at plus and minus infinity. -/
def IsReal (P : ℚ → Prop) (posInf negInf : Prop) : Arg → Prop
  | .int n | .npInt n => P n
  | .float (.fin q) | .npFloat (.fin q) => P q
  | .float (.inf true) | .npFloat (.inf true) => posInf
  | .float (.inf false) | .npFloat (.inf false) => negInf
  | _ => False

/-- `v` is an integer for which `P` holds. -/
def IsInteger (P : ℤ → Prop) : Arg → Prop
  | .int n | .npInt n => P n
  | _ => False

/-- NaN as a Python or numpy float -/
def IsNaN (v : Arg) : Prop := v = .float .nan ∨ v = .npFloat .nan

/-- What it means that a validator, called with a string name and an exception class, accepts exactly `S`: it returns the argument if it is in
`S` and raises the supplied exception if not. -/
def Accepts (f : Arg → VName → Bool → CheckRes) (S : Arg → Prop) : Prop :=
  ∀ v, (S v → f v .str true = .ret v) ∧ (¬ S v → f v .str true = .supplied)

theorem validate_accepts (conds : List (Arg → Bool)) (S : Arg → Prop) (h : ∀ v, (conds.all fun c => c v) = true ↔ S v) : Accepts (validate conds) S := by
  intro v
  simp only [validate, Bool.not_true, Bool.false_eq_true, if_false]
  constructor
  · intro hs; rw [if_pos ((h v).2 hs)]
  · intro hs; rw [if_neg (fun hc => hs ((h v).1 hc))]; rfl

/-- C50: the sets accepted by the scalar validators, exactly. The deviations from the documentation are in the statement: booleans count as integers
(`True` as 1), and NaN passes every check of sign. -/
theorem C50_accepts :
    Accepts realScalar (fun v => IsReal (fun _ => True) True True v ∨ (∃ b, v = .bool b) ∨ IsNaN v) ∧
    Accepts realPositiveScalar (fun v => IsReal (fun q => 0 < q) True False v ∨ v = .bool true ∨ IsNaN v) ∧
    Accepts realNonnegativeScalar (fun v => IsReal (fun q => 0 ≤ q) True False v ∨ (∃ b, v = .bool b) ∨ IsNaN v) ∧
    Accepts scalarInteger (fun v => IsInteger (fun _ => True) v ∨ ∃ b, v = .bool b) ∧
    Accepts positiveScalarInteger (fun v => IsInteger (fun n => 0 < n) v ∨ v = .bool true) ∧
    Accepts nonnegativeScalarInteger (fun v => IsInteger (fun n => 0 ≤ n) v ∨ ∃ b, v = .bool b) ∧
    Accepts string (fun v => ∃ s, v = .str s ∨ v = .bytes s) ∧ Accepts boolean (fun v => ∃ b, v = .bool b) ∧ Accepts dictionary (fun v => v = .dict) := by
  refine ⟨?_, ?_, ?_, ?_, ?_, ?_, ?_, ?_, ?_⟩ <;> refine validate_accepts _ _ fun v => ?_ <;>
    rcases v with b | n | n | b | (q | (_ | _) | _) | (q | (_ | _) | _) | _ | _ | _ | _ | _ | _ <;>
    simp [Arg.isNumber, Arg.isReal, Arg.isInt, Arg.leZero, Arg.ltZero, Flt.leZero, Flt.ltZero, IsReal, IsInteger, IsNaN]

/-- C50: the sets accepted by the array validators, exactly, in terms of the shape and dtype kind of `np.asarray(var)`, which is what they return (not the
argument itself). The checks for numeric content of `oneD_array`, `twoD_array`, `twoD_square_array` and `threeD_array` never fail: an array of strings or
objects of the right shape passes. -/
theorem C50_arrays (v : Arg) :
    ((realArray v .str true = .ret (.array v.asarray.1 v.asarray.2) ↔ v.asarray.1 ≠ [] ∧ v.asarray.2 ∈ ['b', 'i', 'u', 'f']) ∧
    (oneDArray v .str true = .ret (.array v.asarray.1 v.asarray.2) ↔ ∃ n, v.asarray.1 = [n]) ∧
    (twoDArray v .str true = .ret (.array v.asarray.1 v.asarray.2) ↔ ∃ n m, v.asarray.1 = [n, m]) ∧
    (twoDSquareArray v .str true = .ret (.array v.asarray.1 v.asarray.2) ↔ ∃ n, v.asarray.1 = [n, n]) ∧
    (threeDArray v .str true = .ret (.array v.asarray.1 v.asarray.2) ↔ ∃ n m k, v.asarray.1 = [n, m, k])) ∧
    ∀ f ∈ [realArray, oneDArray, twoDArray, twoDSquareArray, threeDArray], f v .str true = .ret (.array v.asarray.1 v.asarray.2) ∨ f v .str true = .supplied := by
  refine ⟨?_, ?_⟩
  · generalize hsh : v.asarray = a
    obtain ⟨sh, kd⟩ := a
    have key : ∀ conds, (validateArray conds v .str true = .ret (.array sh kd) ↔ (conds.all fun c => c (sh, kd)) = true) := by
      intro conds
      simp only [validateArray, hsh, Bool.not_true, Bool.false_eq_true, if_false]
      split_ifs with h
      · exact ⟨fun _ => h, fun _ => rfl⟩
      · exact ⟨fun h' => by simp [raiseVexc] at h', fun h' => absurd h' h⟩
    simp only [realArray, oneDArray, twoDArray, twoDSquareArray, threeDArray, key]
    refine ⟨?_, ?_, ?_, ?_, ?_⟩
    · simp
      rintro _ (rfl | rfl | rfl | rfl) <;> simp
    · rcases sh with _ | ⟨a, _ | ⟨b, sh⟩⟩ <;> simp
    · rcases sh with _ | ⟨a, _ | ⟨b, _ | ⟨c, sh⟩⟩⟩ <;> simp
    · rcases sh with _ | ⟨a, _ | ⟨b, _ | ⟨c, sh⟩⟩⟩ <;> simp
      constructor
      · intro h; exact h.symm
      · intro h; exact h.symm
    · rcases sh with _ | ⟨a, _ | ⟨b, _ | ⟨c, _ | ⟨d, sh⟩⟩⟩⟩ <;> simp
  · intro f hf
    simp only [List.mem_cons, List.not_mem_nil, or_false] at hf
    rcases hf with rfl | rfl | rfl | rfl | rfl <;>
      simp only [realArray, oneDArray, twoDArray, twoDSquareArray, threeDArray, validateArray, Bool.not_true, Bool.false_eq_true, if_false] <;>
      split_ifs <;> simp [raiseVexc]

/-- C50: an invalid name or exception class raises `CheckException`, for every validator. -/
theorem C50_misuse (conds : List (Arg → Bool)) (conds' : List (List ℕ × Char → Bool)) (v : Arg) (n : VName) :
    validate conds v .other true = .check ∧ validateArray conds' v .other true = .check ∧ validate conds v n false = .check ∧ validateArray conds' v n false = .check := by
  cases n <;> simp [validate, validateArray]

/-- C50: a name given as bytes passes the name check, but then a rejected argument raises TypeError instead of the supplied exception. -/
theorem C50_bytes_violated (conds : List (Arg → Bool)) (v : Arg) (h : validate conds v .str true = .supplied) : validate conds v .bytes true = .typeError := by
  simp only [validate, Bool.not_true, Bool.false_eq_true, if_false] at h ⊢
  split_ifs at h ⊢
  rfl

/-- Accepted and rejected arguments. -/
example : realPositiveScalar (.float (.fin (5 / 2))) .str true = .ret (.float (.fin (5 / 2))) ∧ realPositiveScalar (.int (-1)) .str true = .supplied ∧
    positiveScalarInteger (.float (.fin 2)) .str true = .supplied ∧ realPositiveScalar (.float .nan) .str true = .ret (.float .nan) := by
  refine ⟨?_, ?_, ?_, ?_⟩ <;> simp [realPositiveScalar, positiveScalarInteger, validate, Arg.isNumber, Arg.isReal, Arg.isInt, Arg.leZero, Flt.leZero, raiseVexc]
  norm_num

end Verif.Config
