import Verif.Model.ConfigMerge
import Verif.Props.Config

/-!
# C159: merging values into a configuration

`lookup v path` is the value at a path of keys through nested dictionaries, `Silent kwargs path` says that the path
leads to a missing key in `kwargs`, `dataOf o` is the configuration held by `o` (specification of C49).
-/

namespace Verif.Config

theorem always_atom : ∀ (path : List String) (a b : Val) (n : ℕ), lookup b path = some (.atom n) → lookup (always a b) path = some (.atom n) := by
  intro path
  induction path with
  | nil =>
    intro a b n h
    simp only [lookup, Option.some.injEq] at h ⊢
    subst h
    cases a <;> simp only [always]
  | cons k ks ih =>
    intro a b n h
    cases b with
    | dict g =>
      cases a with
      | dict f =>
        simp only [always, lookup] at h ⊢
        cases hg : g k with
        | none => rw [hg] at h; cases h
        | some w =>
          rw [hg] at h
          cases hf : f k with
          | none => exact h
          | some v => simp only [alwaysOpt, Option.bind_some] at h ⊢; exact ih v w n h
      | _ => simpa only [always] using h
    | _ => simp [lookup] at h

theorem always_silent : ∀ (path : List String) (f g : String → Option Val) (n : ℕ), Silent g path → lookup (.dict f) path = some (.atom n) →
    lookup (.dict fun k => alwaysOpt (f k) (g k)) path = some (.atom n) := by
  intro path
  induction path with
  | nil => intro f g n h _; exact h.elim
  | cons k ks ih =>
    intro f g n h hf
    simp only [lookup] at hf ⊢
    cases hk : f k with
    | none => rw [hk] at hf; cases hf
    | some v =>
      rw [hk] at hf
      rcases h with h | ⟨g', h, hs⟩
      · rw [h]; exact hf
      · rw [h]
        simp only [alwaysOpt, Option.bind_some] at hf ⊢
        cases ks with
        | nil => exact hs.elim
        | cons k' ks' =>
          cases v with
          | dict f' => simp only [always]; exact ih f' g' n hs hf
          | _ => simp [lookup] at hf

theorem always_source : ∀ (path : List String) (a b : Val) (n : ℕ), lookup (always a b) path = some (.atom n) →
    lookup a path = some (.atom n) ∨ lookup b path = some (.atom n) := by
  intro path
  induction path with
  | nil =>
    intro a b n h
    rw [always.eq_def] at h
    split at h
    · simp [lookup] at h
    · simp [lookup] at h
    · exact .inr h
  | cons k ks ih =>
    intro a b n h
    rw [always.eq_def] at h
    split at h
    · rename_i f g
      simp only [lookup] at h ⊢
      cases hf : f k with
      | none => rw [hf] at h; right; exact h
      | some v =>
        cases hg : g k with
        | none => rw [hf, hg] at h; left; exact h
        | some w =>
          rw [hf, hg] at h
          simp only [alwaysOpt, Option.bind_some] at h ⊢
          exact ih v w n h
    · simp [lookup] at h
    · exact .inr h

/-- C159. `o.merge(**kwargs)`, for every configuration and every nesting of dictionaries: a leaf given in the arguments has the
given value, one about which the arguments are silent keeps its value, and every leaf comes from one of the two. -/
theorem C159_merge (attrs data kwargs : String → Option Val) (path : List String) (n : ℕ) :
    (lookup (.dict kwargs) path = some (.atom n) → lookup (dataOf (mergeObj (.obj attrs data) kwargs)) path = some (.atom n)) ∧
    (Silent kwargs path → lookup (.dict data) path = some (.atom n) → lookup (dataOf (mergeObj (.obj attrs data) kwargs)) path = some (.atom n)) ∧
    (lookup (dataOf (mergeObj (.obj attrs data) kwargs)) path = some (.atom n) →
      lookup (.dict kwargs) path = some (.atom n) ∨ lookup (.dict data) path = some (.atom n)) := by
  have hm : dataOf (mergeObj (.obj attrs data) kwargs) = always (.dict data) (.dict kwargs) := by simp only [dataOf, mergeObj, always]
  rw [hm]
  refine ⟨always_atom path _ _ n, fun hs hd => ?_, fun h => (always_source path _ _ n h).symm⟩
  rw [always]; exact always_silent path data kwargs n hs hd

/-- C159. After any sequence of merges a leaf has the value of the last one that mentions it. -/
theorem C159_last (o : Val) (attrs data : String → Option Val) (ho : o = .obj attrs data) (before after : List (String → Option Val)) (kwargs : String → Option Val) (path : List String)
    (n : ℕ) (h : lookup (.dict kwargs) path = some (.atom n)) (hs : ∀ g ∈ after, Silent g path) :
    lookup (dataOf ((before ++ kwargs :: after).foldl mergeObj o)) path = some (.atom n) := by
  have hobj : ∀ (l : List (String → Option Val)) (a d : String → Option Val), ∃ d', l.foldl mergeObj (.obj a d) = .obj a d' := by
    intro l
    induction l with
    | nil => intro a d; exact ⟨d, rfl⟩
    | cons g l ih => intro a d; exact ih a _
  have hafter : ∀ (l : List (String → Option Val)) (a d : String → Option Val), (∀ g ∈ l, Silent g path) → lookup (.dict d) path = some (.atom n) →
      lookup (dataOf (l.foldl mergeObj (.obj a d))) path = some (.atom n) := by
    intro l
    induction l with
    | nil => intro a d _ hd; exact hd
    | cons g l ih =>
      intro a d hl hd
      refine ih a _ (fun g' hg' => hl g' (List.mem_cons_of_mem _ hg')) ?_
      exact (C159_merge a d g path n).2.1 (hl g (List.mem_cons_self ..)) hd
  subst ho
  obtain ⟨d', e⟩ := hobj before attrs data
  rw [List.foldl_append, e, List.foldl_cons]
  exact hafter after attrs _ hs ((C159_merge attrs d' kwargs path n).1 h)

/-- C159. A name the arguments do not mention reads as before, by field and by index; attributes assigned by field syntax never
change. -/
theorem C159_others (attrs data kwargs : String → Option Val) (name : String) (hn : name ≠ "data") (hk : kwargs name = none) :
    getAttr (mergeObj (.obj attrs data) kwargs) name = getAttr (.obj attrs data) name ∧
    (getItem (mergeObj (.obj attrs data) kwargs) name).1 = (getItem (.obj attrs data) name).1 := by
  have e : alwaysOpt (data name) none = data name := by cases data name <;> rfl
  simp only [mergeObj, getAttr, getItem, hn, if_false, hk, e]
  exact ⟨trivial, by cases data name <;> rfl⟩

/-- No list anywhere below. -/
inductive NoLists : Val → Prop
  | atom (n : ℕ) : NoLists (.atom n)
  | obj (a d : String → Option Val) : NoLists (.obj a d)
  | dict (f : String → Option Val) (h : ∀ k v, f k = some v → NoLists v) : NoLists (.dict f)

theorem always_twice {b : Val} (hb : NoLists b) : ∀ a, always (always a b) b = always a b := by
  induction hb with
  | atom n => intro a; cases a <;> simp only [always]
  | obj x d => intro a; cases a <;> simp only [always]
  | dict g h ih =>
    have self : always (.dict g) (.dict g) = .dict g := by
      simp only [always]
      congr 1
      funext k
      cases hg : g k with
      | none => rfl
      | some w =>
        simp only [alwaysOpt, Option.some.injEq]
        have h2 := ih k w hg w
        have h3 := ih k w hg (.atom 0)
        have h1 : always (.atom 0) w = w := by cases w <;> simp only [always]
        rwa [h1] at h3
    intro a
    cases a with
    | dict f =>
      simp only [always]
      congr 1
      funext k
      cases hg : g k with
      | none => cases f k <;> rfl
      | some w =>
        cases hf : f k with
        | none =>
          simp only [always] at self
          have := congrFun (Val.dict.inj self) k
          rw [hg] at this
          exact this
        | some v => simp only [alwaysOpt, Option.some.injEq]; exact ih k w hg v
    | atom n => simpa only [always] using self
    | list l => simpa only [always] using self
    | obj x d => simpa only [always] using self

/-- C159. Merging the same arguments twice is merging them once, if there are no lists among them. -/
theorem C159_twice (o : Val) (kwargs : String → Option Val) (h : ∀ k v, kwargs k = some v → NoLists v) : mergeObj (mergeObj o kwargs) kwargs = mergeObj o kwargs := by
  cases o with
  | obj attrs data =>
    have h1 := always_twice (.dict kwargs h) (.dict data)
    simp only [always] at h1
    simp only [mergeObj]
    rw [Val.dict.inj h1]
  | _ => rfl

/-- C159. Violated: a list is appended to the one in the configuration instead of replacing it, so that merging twice appends
twice. -/
theorem C159_list_violated (attrs data kwargs : String → Option Val) (k : String) (l l' : List ℕ) (hk : k ≠ "data") (ha : attrs k = none) (hd : data k = some (.list l))
    (h : kwargs k = some (.list l')) :
    getAttr (mergeObj (.obj attrs data) kwargs) k = .ok (.list (l ++ l')) ∧
    getAttr (mergeObj (mergeObj (.obj attrs data) kwargs) kwargs) k = .ok (.list (l ++ l' ++ l')) := by
  constructor <;> simp [getAttr, mergeObj, ha, hd, h, hk, alwaysOpt, always]

/-- C159. Violated: nested objects are not merged: after `mp.merge(dm1={...})` the parameters of `mp.dm1` that were not
given are gone, and `mp.dm1` is a plain dictionary of which no parameter can be read by field syntax, not even the given ones. -/
theorem C159_object_violated (attrs data kwargs a d f : String → Option Val) (k : String) (hk : k ≠ "data") (ha : attrs k = none) (hd : data k = some (.obj a d))
    (h : kwargs k = some (.dict f)) :
    getAttr (mergeObj (.obj attrs data) kwargs) k = .ok (.dict f) ∧
    ∀ x, (getAttr (mergeObj (.obj attrs data) kwargs) k >>= fun o => getAttr o x) = .error .attributeError := by
  have e : getAttr (mergeObj (.obj attrs data) kwargs) k = .ok (.dict f) := by simp [getAttr, mergeObj, ha, hd, h, hk, alwaysOpt, always]
  refine ⟨e, fun x => ?_⟩
  rw [e]; rfl

/-- C159. Violated: a parameter assigned by field syntax (`mp.Nitr = v`) hides what is merged later. -/
theorem C159_field_violated (attrs data kwargs : String → Option Val) (name : String) (v : Val) : getAttr (mergeObj (setAttr (.obj attrs data) name v) kwargs) name = .ok v := by
  simp [getAttr, mergeObj, setAttr]

/-! ## The hypotheses are met -/

/-- A configuration with a nested dictionary and a list, a default object for dm1, merged twice. -/
example : ∃ data kwargs : String → Option Val,
    lookup (dataOf (mergeObj (.obj (fun _ => none) data) kwargs)) ["full", "lambda0"] = some (.atom 1) ∧
    lookup (dataOf (mergeObj (.obj (fun _ => none) data) kwargs)) ["full", "lambda1"] = some (.atom 3) ∧
    (getAttr (mergeObj (.obj (fun _ => none) data) kwargs) "dm1" >>= fun o => getAttr o "Dstop") = .error .attributeError := by
  let data : String → Option Val := fun k => if k = "full" then some (.dict fun j => if j = "lambda0" then some (.atom 2) else if j = "lambda1" then some (.atom 3) else none)
    else if k = "dm1" then some baseDm1 else none
  let kwargs : String → Option Val := fun k => if k = "full" then some (.dict fun j => if j = "lambda0" then some (.atom 1) else none)
    else if k = "dm1" then some (.dict fun j => if j = "Nact" then some (.atom 48) else none) else none
  refine ⟨data, kwargs, ?_, ?_, ?_⟩
  · exact (C159_merge _ data kwargs ["full", "lambda0"] 1).1 (by simp [lookup, kwargs])
  · exact (C159_merge _ data kwargs ["full", "lambda1"] 3).2.1 (.inr ⟨_, by simp [kwargs]; rfl, .inl (by simp)⟩) (by simp [lookup, data])
  · exact (C159_object_violated _ data kwargs _ _ _ "dm1" (by decide) rfl (by simp [data, baseDm1]; exact ⟨rfl, rfl⟩) (by simp [kwargs]; rfl)).2 "Dstop"

/-- Arguments without lists. -/
example : ∃ kwargs : String → Option Val, kwargs "Nitr" = some (.atom 5) ∧ ∀ k v, kwargs k = some v → NoLists v := by
  refine ⟨fun k => if k = "Nitr" then some (.atom 5) else none, rfl, fun k v h => ?_⟩
  dsimp only at h
  split at h
  · cases h; exact .atom 5
  · cases h

end Verif.Config
