import Verif.Model.Yaml
import Mathlib.Tactic.Common

/-!
# C123: configurations read from yaml
-/

namespace Verif.Yaml

/-! ### Specification -/

/-- The entry that counts for key `k` of a mapping: the last one. -/
def entry (es : List (Key × Node)) (k : String) : Option Node := (es.reverse.find? fun e => e.1 = .str k).map Prod.snd

/-- A value shows a part of a document: scalars as they are, `!eval` as a lazy expression whose locals are the dictionary `ctx`, lists element by element, mappings as objects
with the entries of the mapping and, for the classes, their defaults for the keys that are not given. -/
inductive Shows (classes : String → Option Ctor) (ctx : ℕ) : Node → Value → Prop
  | scalar (n : ℕ) : Shows classes ctx (.scalar n) (.atom n)
  | eval (code : String) : Shows classes ctx (.eval code) (.lazy ctx code)
  | seq (l : List Node) (vs : List Value) : l.length = vs.length → (∀ (i : ℕ) n v, l[i]? = some n → vs[i]? = some v → Shows classes ctx n v) → Shows classes ctx (.seq l) (.list vs)
  | map (es : List (Key × Node)) (d : String → Option Value) : (∀ k n, entry es k = some n → ∃ v, d k = some v) →
      (∀ k n v, entry es k = some n → d k = some v → Shows classes ctx n v) → (∀ k, entry es k = none → d k = none) → Shows classes ctx (.map none es) (.obj d)
  | tagged (t : String) (c : Ctor) (es : List (Key × Node)) (d : String → Option Value) : classes t = some c → (∀ k n, entry es k = some n → ∃ v, d k = some v) →
      (∀ k n v, entry es k = some n → d k = some v → Shows classes ctx n v) → (∀ k, entry es k = none → d k = c k) → Shows classes ctx (.map (some t) es) (.obj d)

mutual
/-- A document that uses only tags of `classes`, `!eval` before strings only, and keys that can be names of fields (strings other than `self`). -/
def Proper (classes : String → Option Ctor) : Node → Prop
  | .scalar _ => True
  | .eval _ => True
  | .evalBad => False
  | .seq l => ProperList classes l
  | .map none es => ProperEntries classes es
  | .map (some t) es => (∃ c, classes t = some c) ∧ ProperEntries classes es
/-- The same of a list. -/
def ProperList (classes : String → Option Ctor) : List Node → Prop
  | [] => True
  | n :: ns => Proper classes n ∧ ProperList classes ns
/-- The same of the entries of a mapping. -/
def ProperEntries (classes : String → Option Ctor) : List (Key × Node) → Prop
  | [] => True
  | (k, n) :: es => (∃ s, k = .str s ∧ s ≠ "self") ∧ Proper classes n ∧ ProperEntries classes es
end

/-- The classes that `from_yaml` knows. -/
def falcoClasses (probe schedule : Ctor) (t : String) : Option Ctor := if t = "!Probe" then some probe else if t = "!ProbeSchedule" then some schedule else none

/-! ### Lemmas -/

/-- Value `vs` of entries `es`, key by key. -/
def Match (classes : String → Option Ctor) (ctx : ℕ) : List (Key × Node) → List (Key × Value) → Prop
  | [], [] => True
  | (k, n) :: es, (k', v) :: vs => k = k' ∧ (∃ s, k = .str s ∧ s ≠ "self") ∧ Shows classes ctx n v ∧ Match classes ctx es vs
  | _, _ => False

theorem match_append {classes : String → Option Ctor} {ctx : ℕ} : ∀ {es es' : List (Key × Node)} {vs vs' : List (Key × Value)}, Match classes ctx es vs → Match classes ctx es' vs' →
    Match classes ctx (es ++ es') (vs ++ vs')
  | [], _, [], _, _, h' => h'
  | (_, _) :: _, _, (_, _) :: _, _, ⟨h1, h2, h3, h4⟩, h' => ⟨h1, h2, h3, match_append h4 h'⟩

theorem match_reverse {classes : String → Option Ctor} {ctx : ℕ} : ∀ {es : List (Key × Node)} {vs : List (Key × Value)}, Match classes ctx es vs → Match classes ctx es.reverse vs.reverse
  | [], [], _ => trivial
  | (k, n) :: es, (k', v) :: vs, ⟨h1, h2, h3, h4⟩ => by
    rw [List.reverse_cons, List.reverse_cons]
    exact match_append (match_reverse h4) ⟨h1, h2, h3, trivial⟩

theorem match_find {classes : String → Option Ctor} {ctx : ℕ} (k : Key) : ∀ {es : List (Key × Node)} {vs : List (Key × Value)}, Match classes ctx es vs →
    (∀ n, (es.find? fun e => e.1 = k).map Prod.snd = some n → ∃ v, (vs.find? fun e => e.1 = k).map Prod.snd = some v ∧ Shows classes ctx n v) ∧
    ((es.find? fun e => e.1 = k).map Prod.snd = none → (vs.find? fun e => e.1 = k).map Prod.snd = none)
  | [], [], _ => by simp
  | (k0, n0) :: es, (k', v0) :: vs, ⟨h1, _, h3, h4⟩ => by
    subst h1
    by_cases hk : k0 = k
    · subst hk
      simp only [List.find?_cons, decide_true, Option.map_some, Option.some.injEq, reduceCtorEq, false_implies, and_true]
      rintro n rfl
      exact ⟨v0, rfl, h3⟩
    · simp only [List.find?_cons, decide_eq_false hk]
      exact match_find k h4

theorem match_dict {classes : String → Option Ctor} {ctx : ℕ} {es : List (Key × Node)} {vs : List (Key × Value)} (h : Match classes ctx es vs) (k : String) :
    (∀ n, entry es k = some n → ∃ v, toDict vs (.str k) = some v ∧ Shows classes ctx n v) ∧ (entry es k = none → toDict vs (.str k) = none) :=
  match_find (.str k) (match_reverse h)

theorem match_keys {classes : String → Option Ctor} {ctx : ℕ} : ∀ {es : List (Key × Node)} {vs : List (Key × Value)}, Match classes ctx es vs →
    vs.any (fun e => badKey e.1) = false
  | [], [], _ => rfl
  | (k0, n0) :: es, (k', v0) :: vs, ⟨h1, ⟨s, hs, hne⟩, _, h4⟩ => by
    subst h1 hs
    rw [List.any_cons, match_keys h4]
    simp [badKey, hne]

theorem callClass_shows {classes : String → Option Ctor} {ctx : ℕ} {es : List (Key × Node)} {vs : List (Key × Value)} (h : Match classes ctx es vs) (c : Ctor) :
    ∃ d, callClass c vs = .ok (.obj d) ∧ (∀ k n, entry es k = some n → ∃ v, d k = some v) ∧ (∀ k n v, entry es k = some n → d k = some v → Shows classes ctx n v) ∧
      ∀ k, entry es k = none → d k = c k := by
  unfold callClass
  rw [match_keys h, if_neg (by decide)]
  refine ⟨_, rfl, ?_, ?_, ?_⟩
  · intro k n hn
    obtain ⟨v, hv, _⟩ := (match_dict h k).1 n hn
    exact ⟨v, by rw [hv]⟩
  · intro k n v hn hd
    obtain ⟨v', hv, hs⟩ := (match_dict h k).1 n hn
    rw [hv] at hd
    cases hd
    exact hs
  · intro k hn
    rw [(match_dict h k).2 hn]

/-- A table that makes Objects of mappings, lazies with `ctx` of `!eval`, and knows the classes. -/
def Knows (classes : String → Option Ctor) (ctx : ℕ) (reg : Registry) : Prop := reg.mapToObject = true ∧ reg.evalCtx = some ctx ∧ ∀ t c, classes t = some c → reg.tags t = some c

mutual
theorem construct_shows {classes : String → Option Ctor} {ctx : ℕ} {reg : Registry} (hr : Knows classes ctx reg) : ∀ (n : Node), Proper classes n → ∃ v, construct reg n = .ok v ∧ Shows classes ctx n v
  | .scalar n, _ => ⟨_, by rw [construct], .scalar n⟩
  | .eval code, _ => ⟨.lazy ctx code, by rw [construct, hr.2.1], .eval code⟩
  | .evalBad, h => absurd h (by simp [Proper])
  | .seq l, h => by
    obtain ⟨vs, h1, h2, h3⟩ := constructList_shows hr l (by simpa [Proper] using h)
    exact ⟨.list vs, by rw [construct, h1]; rfl, .seq l vs h2 h3⟩
  | .map none es, h => by
    obtain ⟨vs, h1, h2⟩ := constructEntries_shows hr es (by simpa [Proper] using h)
    obtain ⟨d, h3, h4, h5, h6⟩ := callClass_shows h2 (fun _ => none)
    exact ⟨.obj d, by rw [construct, h1]; simp only [Except.bind, hr.1, if_true]; exact h3, .map es d h4 h5 h6⟩
  | .map (some t) es, h => by
    have h' : (∃ c, classes t = some c) ∧ ProperEntries classes es := by simpa [Proper] using h
    obtain ⟨⟨c, hc⟩, he⟩ := h'
    obtain ⟨vs, h1, h2⟩ := constructEntries_shows hr es he
    obtain ⟨d, h3, h4, h5, h6⟩ := callClass_shows h2 c
    exact ⟨.obj d, by rw [construct, hr.2.2 t c hc, h1]; exact h3, .tagged t c es d hc h4 h5 h6⟩
theorem constructList_shows {classes : String → Option Ctor} {ctx : ℕ} {reg : Registry} (hr : Knows classes ctx reg) : ∀ (l : List Node), ProperList classes l →
    ∃ vs, constructList reg l = .ok vs ∧ l.length = vs.length ∧ ∀ (i : ℕ) n v, l[i]? = some n → vs[i]? = some v → Shows classes ctx n v
  | [], _ => ⟨[], by rw [constructList], rfl, by simp⟩
  | n :: ns, h => by
    have h' : Proper classes n ∧ ProperList classes ns := by simpa [ProperList] using h
    obtain ⟨v, h1, h2⟩ := construct_shows hr n h'.1
    obtain ⟨vs, h3, h4, h5⟩ := constructList_shows hr ns h'.2
    refine ⟨v :: vs, by rw [constructList, h1, h3]; rfl, by simp [h4], ?_⟩
    intro i n' v' hn hv
    cases i with
    | zero =>
      simp only [List.getElem?_cons_zero, Option.some.injEq] at hn hv
      subst hn hv
      exact h2
    | succ i => exact h5 i n' v' (by simpa using hn) (by simpa using hv)
theorem constructEntries_shows {classes : String → Option Ctor} {ctx : ℕ} {reg : Registry} (hr : Knows classes ctx reg) : ∀ (es : List (Key × Node)), ProperEntries classes es →
    ∃ vs, constructEntries reg es = .ok vs ∧ Match classes ctx es vs
  | [], _ => ⟨[], by rw [constructEntries], trivial⟩
  | (k, n) :: es, h => by
    have h' : (∃ s, k = .str s ∧ s ≠ "self") ∧ Proper classes n ∧ ProperEntries classes es := by simpa [ProperEntries] using h
    obtain ⟨v, h1, h2⟩ := construct_shows hr n h'.2.1
    obtain ⟨vs, h3, h4⟩ := constructEntries_shows hr es h'.2.2
    exact ⟨(k, v) :: vs, by rw [constructEntries, h1, h3]; rfl, rfl, h'.1, h2, h4⟩
end

mutual
/-- Whatever a table that knows no other tags accepts is a proper document. -/
theorem construct_proper {classes : String → Option Ctor} {reg : Registry} (hm : reg.mapToObject = true) (hr : ∀ t, reg.tags t = classes t) : ∀ (n : Node) (v : Value), construct reg n = .ok v → Proper classes n
  | .scalar _, _, _ => by simp [Proper]
  | .eval _, _, _ => by simp [Proper]
  | .evalBad, _, h => by simp [construct] at h
  | .seq l, v, h => by
    rw [construct] at h
    cases hc : constructList reg l with
    | error e => rw [hc] at h; simp [Except.map] at h
    | ok vs => simpa [Proper] using constructList_proper hm hr l vs hc
  | .map none es, v, h => by
    rw [construct] at h
    cases hc : constructEntries reg es with
    | error e => rw [hc] at h; simp [Except.bind] at h
    | ok vs =>
      rw [hc] at h
      simp only [Except.bind, hm, if_true] at h
      simpa [Proper] using constructEntries_proper hm hr es vs hc (by
        unfold callClass at h
        split_ifs at h with ha
        · simpa using ha)
  | .map (some t) es, v, h => by
    rw [construct] at h
    cases ht : reg.tags t with
    | none => rw [ht] at h; simp at h
    | some c =>
      rw [ht] at h
      dsimp only at h
      cases hc : constructEntries reg es with
      | error e => rw [hc] at h; simp [Except.bind] at h
      | ok vs =>
        rw [hc] at h
        simp only [Except.bind] at h
        have := constructEntries_proper hm hr es vs hc (by
          unfold callClass at h
          split_ifs at h with ha
          · simpa using ha)
        rw [Proper]
        exact ⟨⟨c, by rw [← hr t]; exact ht⟩, this⟩
theorem constructList_proper {classes : String → Option Ctor} {reg : Registry} (hm : reg.mapToObject = true) (hr : ∀ t, reg.tags t = classes t) : ∀ (l : List Node) (vs : List Value), constructList reg l = .ok vs →
    ProperList classes l
  | [], _, _ => by simp [ProperList]
  | n :: ns, vs, h => by
    rw [constructList] at h
    cases h1 : construct reg n with
    | error e => rw [h1] at h; simp [Except.bind] at h
    | ok v =>
      rw [h1] at h
      cases h2 : constructList reg ns with
      | error e => rw [h2] at h; simp [Except.bind, Except.map] at h
      | ok vs' =>
        rw [ProperList]
        exact ⟨construct_proper hm hr n v h1, constructList_proper hm hr ns vs' h2⟩
theorem constructEntries_proper {classes : String → Option Ctor} {reg : Registry} (hm : reg.mapToObject = true) (hr : ∀ t, reg.tags t = classes t) : ∀ (es : List (Key × Node)) (vs : List (Key × Value)),
    constructEntries reg es = .ok vs → (∀ e ∈ vs, badKey e.1 = false) → ProperEntries classes es
  | [], _, _, _ => by simp [ProperEntries]
  | (k, n) :: es, vs, h, hk => by
    rw [constructEntries] at h
    cases h1 : construct reg n with
    | error e => rw [h1] at h; simp [Except.bind] at h
    | ok v =>
      rw [h1] at h
      cases h2 : constructEntries reg es with
      | error e => rw [h2] at h; simp [Except.bind, Except.map] at h
      | ok vs' =>
        rw [h2] at h
        simp only [Except.bind, Except.map, Except.ok.injEq] at h
        subst h
        rw [ProperEntries]
        refine ⟨?_, construct_proper hm hr n v h1, constructEntries_proper hm hr es vs' h2 fun e he => hk e (List.mem_cons_of_mem _ he)⟩
        have := hk _ List.mem_cons_self
        cases k with
        | str s => exact ⟨s, rfl, by simpa [badKey] using this⟩
        | other m => simp [badKey] at this
end

/-! ### Claims -/

/-- A process in which configurations have been read with `from_yaml` any number of times, with any texts (good or bad) and any contexts. -/
inductive Reached (defaults probe schedule : Ctor) : World → Prop
  | start (mpOf : ℕ → Option ℕ) : Reached defaults probe schedule ⟨stock, mpOf, []⟩
  | call (w : World) (text : Node) (ctx : ℕ) : Reached defaults probe schedule w → Reached defaults probe schedule (fromYaml defaults probe schedule w text ctx).2

theorem fromYaml_reg (defaults probe schedule : Ctor) (w : World) (text : Node) (ctx : ℕ) :
    (fromYaml defaults probe schedule w text ctx).2.reg = getLoader w.reg ctx (falcoClasses probe schedule) ∧
    (fromYaml defaults probe schedule w text ctx).2.mpOf = Function.update w.mpOf ctx (some w.objs.length) ∧
    ∃ o, (fromYaml defaults probe schedule w text ctx).2.objs = w.objs ++ [o] := by
  unfold fromYaml loadFromStr
  dsimp only
  rcases Except.bind (construct (getLoader w.reg ctx _) text) _ with e | d
  · exact ⟨rfl, rfl, _, rfl⟩
  · exact ⟨rfl, rfl, _, rfl⟩

theorem knows_loader (probe schedule : Ctor) (reg : Registry) (ctx : ℕ) : Knows (falcoClasses probe schedule) ctx (getLoader reg ctx (falcoClasses probe schedule)) :=
  ⟨rfl, rfl, fun t c h => by simp only [getLoader, h]⟩

theorem reached_tags {defaults probe schedule : Ctor} {w : World} (h : Reached defaults probe schedule w) (t : String) : (falcoClasses probe schedule t = none → w.reg.tags t = none) := by
  induction h with
  | start => intro _; rfl
  | call w text ctx _ ih =>
    intro ht
    rw [(fromYaml_reg defaults probe schedule w text ctx).1]
    simp only [getLoader, ht]
    exact ih ht

/-- C123: a proper document is loaded, whatever happened in the process before: the new object has, for each key of the mapping, a value that shows the entry (with this call's context for
its lazy expressions) and for every other key the default; no other object changes. -/
theorem C123_loads (defaults probe schedule : Ctor) (w : World) (es : List (Key × Node)) (ctx : ℕ) (h : Proper (falcoClasses probe schedule) (.map none es)) :
    (fromYaml defaults probe schedule w (.map none es) ctx).1 = .ok w.objs.length ∧
    ∃ o, (fromYaml defaults probe schedule w (.map none es) ctx).2.objs = w.objs ++ [o] ∧
      (∀ k n, entry es k = some n → ∃ v, o k = some v ∧ Shows (falcoClasses probe schedule) ctx n v) ∧ ∀ k, entry es k = none → o k = defaults k := by
  obtain ⟨v, hv, hs⟩ := construct_shows (knows_loader probe schedule w.reg ctx) _ h
  cases hs with
  | map _ d h1 h2 h3 =>
    have e : fromYaml defaults probe schedule w (.map none es) ctx = (.ok w.objs.length, ⟨getLoader w.reg ctx (falcoClasses probe schedule), Function.update w.mpOf ctx (some w.objs.length),
        w.objs ++ [fun k => match d k with
          | some v => some v
          | none => defaults k]⟩) := by
      unfold fromYaml loadFromStr
      have hv' : construct (getLoader w.reg ctx fun t => if t = "!Probe" then some probe else if t = "!ProbeSchedule" then some schedule else none) (.map none es) = .ok (.obj d) := hv
      simp only [hv', Except.bind]
      rfl
    rw [e]
    refine ⟨rfl, _, rfl, ?_, ?_⟩
    · intro k n hn
      obtain ⟨v, hv⟩ := h1 k n hn
      exact ⟨v, by rw [hv], h2 k n v hn hv⟩
    · intro k hk
      rw [h3 k hk]

/-- C123: and nothing else is: after any history of `from_yaml` calls, a text is accepted if and only if it is a proper document that is a mapping.  (So tags other than the two classes,
`!eval` before a list or mapping, keys that are not strings and the key `self` are rejected at every depth.) -/
theorem C123_accepts (defaults probe schedule : Ctor) (w : World) (hw : Reached defaults probe schedule w) (text : Node) (ctx : ℕ) :
    (∃ id, (fromYaml defaults probe schedule w text ctx).1 = .ok id) ↔ Proper (falcoClasses probe schedule) text ∧ ∃ tag es, text = .map tag es := by
  have hreg : ∀ t, (getLoader w.reg ctx (falcoClasses probe schedule)).tags t = falcoClasses probe schedule t := by
    intro t
    cases hc : falcoClasses probe schedule t with
    | none => simp only [getLoader, hc]; exact reached_tags hw t hc
    | some c => simp only [getLoader, hc]
  have hform : (∃ id, (fromYaml defaults probe schedule w text ctx).1 = .ok id) ↔ ∃ d, construct (getLoader w.reg ctx (falcoClasses probe schedule)) text = .ok (.obj d) := by
    unfold fromYaml loadFromStr
    rw [show (fun t => if t = "!Probe" then some probe else if t = "!ProbeSchedule" then some schedule else none) = falcoClasses probe schedule from rfl]
    cases hc : construct (getLoader w.reg ctx (falcoClasses probe schedule)) text with
    | error e => simp [Except.bind, hc]
    | ok v => cases v <;> simp [Except.bind, hc]
  rw [hform]
  constructor
  · rintro ⟨d, hd⟩
    refine ⟨construct_proper rfl hreg text _ hd, ?_⟩
    match text, hd with
    | .scalar n, hd => simp [construct] at hd
    | .eval c, hd => simp [construct, getLoader] at hd
    | .evalBad, hd => simp [construct] at hd
    | .seq l, hd =>
      rw [construct] at hd
      cases hl : constructList (getLoader w.reg ctx (falcoClasses probe schedule)) l with
      | error e => rw [hl] at hd; simp [Except.map] at hd
      | ok vs => rw [hl] at hd; simp [Except.map] at hd
    | .map tag es, _ => exact ⟨tag, es, rfl⟩
  · rintro ⟨hp, tag, es, rfl⟩
    obtain ⟨v, hv, hs⟩ := construct_shows (knows_loader probe schedule w.reg ctx) _ hp
    cases hs with
    | map _ d => exact ⟨d, hv⟩
    | tagged _ _ _ d => exact ⟨d, hv⟩

/-- Later calls: any number of `from_yaml` calls with any texts, none with the context `ctx`. -/
inductive Later (defaults probe schedule : Ctor) (ctx : ℕ) : World → World → Prop
  | refl (w : World) : Later defaults probe schedule ctx w w
  | call (w w' : World) (text : Node) (ctx' : ℕ) : Later defaults probe schedule ctx w w' → ctx' ≠ ctx → Later defaults probe schedule ctx w (fromYaml defaults probe schedule w' text ctx').2

/-- C123: the lazy expressions of a configuration read without a context (so with a dictionary of its own), or with a context that is not used again, see that configuration under the name
`mp`, whatever is read later; and the configuration itself is not changed by later calls. -/
theorem C123_own (defaults probe schedule : Ctor) (w : World) (text : Node) (ctx : ℕ) (w' : World)
    (h : Later defaults probe schedule ctx (fromYaml defaults probe schedule w text ctx).2 w') (code : String) :
    seenMp w' (.lazy ctx code) = some w.objs.length ∧ w'.objs[w.objs.length]? = (fromYaml defaults probe schedule w text ctx).2.objs[w.objs.length]? := by
  induction h with
  | refl =>
    refine ⟨?_, rfl⟩
    simp only [seenMp, (fromYaml_reg defaults probe schedule w text ctx).2.1, Function.update_self]
  | call w' text' ctx' hl hne ih =>
    obtain ⟨ih1, ih2⟩ := ih
    obtain ⟨_, h2, o, h3⟩ := fromYaml_reg defaults probe schedule w' text' ctx'
    refine ⟨?_, ?_⟩
    · simp only [seenMp] at ih1 ⊢
      rw [h2, Function.update_of_ne (Ne.symm hne)]
      exact ih1
    · rw [h3, ← ih2]
      have hlen : w.objs.length < w'.objs.length := by
        obtain ⟨_, _, o', h4⟩ := fromYaml_reg defaults probe schedule w text ctx
        rw [h4, List.getElem?_append_right (Nat.le_refl _), Nat.sub_self] at ih2
        by_contra hlt
        rw [List.getElem?_eq_none (by omega)] at ih2
        simp at ih2
      rw [List.getElem?_append_left hlen]

/-- C123 violated for a context dictionary used twice: after the second call the lazy expressions of the first configuration see the second one. -/
theorem C123_context_violated (defaults probe schedule : Ctor) (w : World) (text text' : Node) (ctx : ℕ) (code : String) :
    seenMp (fromYaml defaults probe schedule (fromYaml defaults probe schedule w text ctx).2 text' ctx).2 (.lazy ctx code) = some (w.objs.length + 1) := by
  obtain ⟨_, _, o, h3⟩ := fromYaml_reg defaults probe schedule w text ctx
  simp only [seenMp, (fromYaml_reg defaults probe schedule (fromYaml defaults probe schedule w text ctx).2 text' ctx).2.1, Function.update_self, h3, List.length_append, List.length_singleton]

/-- C123 violated when others use the loader: after a `load_from_str` with a class for some tag (not one of falco's), `from_yaml` accepts that tag, which it rejects in a fresh process; and
PyYAML's own loading of mappings, which gives dictionaries before, gives Objects after. -/
theorem C123_leak_violated (defaults probe schedule c : Ctor) (t : String) (ht : falcoClasses probe schedule t = none) (other : Node) (mpOf : ℕ → Option ℕ) (objs : List (String → Option Value)) (ctx ctx' : ℕ) :
    (∀ id, (fromYaml defaults probe schedule ⟨stock, mpOf, []⟩ (.map none [(.str "a", .map (some t) [])]) ctx).1 ≠ .ok id) ∧
    (fromYaml defaults probe schedule ⟨(loadFromStr stock other ctx' fun s => if s = t then some c else none).2, mpOf, objs⟩ (.map none [(.str "a", .map (some t) [])]) ctx).1 = .ok objs.length ∧
    (∃ d, construct stock (.map none [(.str "a", .scalar 1)]) = .ok (.dict d)) ∧
    (∃ d, construct (fromYaml defaults probe schedule ⟨stock, mpOf, objs⟩ other ctx).2.reg (.map none [(.str "a", .scalar 1)]) = .ok (.obj d)) := by
  refine ⟨?_, ?_, ⟨toDict [(.str "a", .atom 1)], ?_⟩, ?_⟩
  · intro id h
    have := ((C123_accepts defaults probe schedule _ (.start mpOf) _ ctx).mp ⟨id, h⟩).1
    rw [Proper, ProperEntries, Proper] at this
    obtain ⟨c', hc'⟩ := this.2.1.1
    rw [ht] at hc'
    cases hc'
  · set reg := (loadFromStr stock other ctx' fun s => if s = t then some c else none).2 with hreg
    have h1 : (getLoader reg ctx (falcoClasses probe schedule)).tags t = some c := by
      simp only [getLoader, ht, hreg, loadFromStr, if_true]
    have h2 : construct (getLoader reg ctx (falcoClasses probe schedule)) (.map none [(.str "a", .map (some t) [])]) =
        callClass (fun _ => none) [(.str "a", .obj fun k => match toDict [] (.str k) with
          | some v => some v
          | none => c k)] := by
      rw [construct, constructEntries, construct, h1]
      simp only [constructEntries, Except.bind, callClass, List.any_nil, Bool.false_eq_true, if_false, Except.map, getLoader, if_true]
      rfl
    have h3 : ∃ d, construct (getLoader reg ctx (falcoClasses probe schedule)) (.map none [(.str "a", .map (some t) [])]) = .ok (.obj d) := by
      rw [h2]
      unfold callClass
      rw [if_neg (by simp [badKey])]
      exact ⟨_, rfl⟩
    obtain ⟨d, hd⟩ := h3
    unfold fromYaml loadFromStr
    have hd' : construct (getLoader reg ctx fun t => if t = "!Probe" then some probe else if t = "!ProbeSchedule" then some schedule else none) (.map none [(.str "a", .map (some t) [])]) = .ok (.obj d) := hd
    simp only [hd', Except.bind]
  · simp [construct, constructEntries, Except.bind, Except.map, stock]
  · rw [(fromYaml_reg defaults probe schedule _ other ctx).1]
    simp [construct, constructEntries, Except.bind, Except.map, getLoader, callClass, badKey]

/-! ### A case that meets the hypotheses -/

/-- A text with a nested mapping, a list, a lazy expression and a `!Probe` with one field. -/
def demo : List (Key × Node) :=
  [(.str "Nitr", .scalar 5), (.str "jac", .map none [(.str "zerns", .seq [.scalar 1, .scalar 2]), (.str "Zcoef", .eval "1e-9*np.ones(np.size(mp.jac.zerns))")]),
   (.str "probe", .map (some "!Probe") [(.str "Npairs", .scalar 2)])]

/-- It is proper, so it is loaded from every state of the process; the probe has the given field and otherwise the defaults. -/
theorem C123_demo (defaults schedule : Ctor) (w : World) (ctx : ℕ) :
    ∃ o d, (fromYaml defaults (fun k => if k = "radius" then some (.atom 12) else none) schedule w (.map none demo) ctx).2.objs = w.objs ++ [o] ∧ o "Nitr" = some (.atom 5) ∧
      o "probe" = some (.obj d) ∧ d "Npairs" = some (.atom 2) ∧ d "radius" = some (.atom 12) ∧ o "dm1" = defaults "dm1" := by
  obtain ⟨_, o, h1, h2, h3⟩ := C123_loads defaults (fun k => if k = "radius" then some (.atom 12) else none) schedule w demo ctx (by
    simp [demo, Proper, ProperEntries, ProperList, falcoClasses])
  obtain ⟨v, hv, hs⟩ := h2 "Nitr" (.scalar 5) (by simp [entry, demo])
  obtain ⟨v', hv', hs'⟩ := h2 "probe" (.map (some "!Probe") [(.str "Npairs", .scalar 2)]) (by simp [entry, demo])
  cases hs
  cases hs' with
  | tagged t c es d hc k1 k2 k3 =>
    have hc' : c = fun k => if k = "radius" then some (.atom 12) else none := by
      simp only [falcoClasses, if_true, Option.some.injEq] at hc
      exact hc.symm
    obtain ⟨x, hx⟩ := k1 "Npairs" (.scalar 2) (by simp [entry])
    have hsx := k2 "Npairs" (.scalar 2) x (by simp [entry]) hx
    cases hsx
    refine ⟨o, d, h1, hv, hv', hx, ?_, h3 "dm1" (by simp [entry, demo])⟩
    rw [k3 "radius" (by simp [entry]), hc']
    rfl

end Verif.Yaml
