import Verif.Model.Arr
import Mathlib.Logic.Function.Basic

/-!
# Model of deep copies of configurations (falco/config/Eval.py:48-49 with Python's `copy.deepcopy`; used at falco/setup.py:1235, 1250)

Memory is a list of cells; a reference is the position of a cell, so that objects can be shared and refer to each other in cycles (the expressions of a configuration refer to the
configuration, ModelParameters.py:246-262).
-/

namespace Verif.DeepCopy

/-- An injected expression: it returns, raises, or reads an attribute path that starts at one of its local names (`mp.P2.D` is `["mp", "P2", "D"]`) and goes on with its value.
`reads` values: `none` stands for an object that is not a plain value.  Simplifications: expressions return plain values and have no side effects. -/
inductive Code where
  | ret (v : ℕ)
  | fail
  | read (path : List String) (k : Option ℕ → Code)

/-- A cell of memory. -/
inductive Cell where
  /-- A number, string, array, ... (`copy.deepcopy` copies arrays; that it shares numbers and strings cannot be observed). -/
  | plain (v : ℕ)
  /-- An `Object` (`kind` is its class), a dictionary or a list, with its entries.  Simplification: the attributes of an `Object` and the dictionary `data` are one (for the difference: C68). -/
  | node (kind : String) (entries : List (String × ℕ))
  /-- An `Eval` (Eval.py:4-34): its code (with `globals`, which are not copied) and the reference of `locals`. -/
  | lazy (code : Code) (locals : ℕ)

/-- Memory and the dictionary `memo` of `copy.deepcopy`. -/
structure St where
  heap : List Cell
  memo : ℕ → Option ℕ

/-- The values of the entries one after the other. -/
def copyEntries (copy : ℕ → St → Option (ℕ × St)) : List (String × ℕ) → St → Option (List (String × ℕ) × St)
  | [], s => some ([], s)
  | e :: es, s =>
    match copy e.2 s with
    | none => none
    | some (y, s) =>
      match copyEntries copy es s with
      | none => none
      | some (ys, s) => some ((e.1, y) :: ys, s)

/-- `copy.deepcopy(x, memo)`; `limit` is the depth of recursion that Python still allows (`none`: RecursionError).  Objects, dictionaries and lists are entered in `memo` before their
entries are copied (the new object is filled in at the end here: it is not read before).  An `Eval` is copied by `__deepcopy__` (Eval.py:48-49), which copies `locals` with the
same `memo`; it is entered in `memo` by `copy.deepcopy` afterwards. -/
def deepcopy : ℕ → ℕ → St → Option (ℕ × St)
  | 0, _, _ => none
  | limit + 1, x, s =>
    match s.memo x with
    | some y => some (y, s)
    | none =>
      match s.heap[x]? with
      | none => none
      | some (.plain v) => some (s.heap.length, ⟨s.heap ++ [.plain v], Function.update s.memo x (some s.heap.length)⟩)
      | some (.node kind es) =>
        let y := s.heap.length
        match copyEntries (deepcopy limit) es ⟨s.heap ++ [.node kind []], Function.update s.memo x (some y)⟩ with
        | none => none
        | some (es', s) => some (y, ⟨s.heap.set y (.node kind es'), s.memo⟩)
      | some (.lazy code locals) =>
        match deepcopy limit locals s with
        | none => none
        | some (l', s) => some (s.heap.length, ⟨s.heap ++ [.lazy code l'], Function.update s.memo x (some s.heap.length)⟩)

/-- `copy.deepcopy(x)`: the reference of the copy and memory afterwards. -/
def copyOf (limit : ℕ) (heap : List Cell) (x : ℕ) : Option (ℕ × List Cell) :=
  (deepcopy limit x ⟨heap, fun _ => none⟩).map fun r => (r.1, r.2.heap)

/-- `obj.name = v` with `v` the reference of the value -/
def setField (heap : List Cell) (o : ℕ) (name : String) (v : ℕ) : List Cell :=
  match heap[o]? with
  | some (.node kind es) => heap.set o (.node kind ((name, v) :: es.filter fun e => e.1 ≠ name))
  | _ => heap

/-- setup.py:1234-1235 (1249-1250 for DM2): `mp.dm1.compact = falco.config.Object()`, then `mp.dm1.compact = copy.deepcopy(mp.dm1)`; `dm` is `mp.dm1`.  What is copied has the new,
empty object as `compact`. -/
def makeCompact (limit : ℕ) (heap : List Cell) (dm : ℕ) : Option (ℕ × List Cell) :=
  match copyOf limit (setField (heap ++ [.node "Object" []]) dm "compact" heap.length) dm with
  | none => none
  | some (y, h) => some (y, setField h dm "compact" y)

end Verif.DeepCopy
