import Mathlib.Logic.Function.Basic
import Mathlib.Data.Nat.Notation

/-!
# Model of falco/config/yaml_loader.py and `ModelParameters.from_yaml` (falco/config/ModelParameters.py:214-272)

PyYAML is not in /repo.  What is modelled of it: the parsed document (`Node`), and that constructors are kept in one table of the class `yaml.SafeLoader`, shared by the
whole process.  Simplifications: anchors and merge keys (`<<`) are left out; PyYAML fills lists at the end of the document, here at once (so which of several errors is
raised first may differ); scalars are numbers (`atom`).
-/

namespace Verif.Yaml

/-- What loading may raise. -/
inductive Err
  /-- `yaml.constructor.ConstructorError` -/
  | constructorError
  | typeError | attributeError
  deriving DecidableEq, Repr

/-- A key of a mapping: a string, or another scalar (a number, say). -/
inductive Key
  | str (s : String)
  | other (n : ℕ)
  deriving DecidableEq, Repr

/-- A parsed document. -/
inductive Node
  /-- an untagged scalar -/
  | scalar (n : ℕ)
  /-- `!eval code` -/
  | eval (code : String)
  /-- `!eval` before a list or a mapping -/
  | evalBad
  /-- a list -/
  | seq (l : List Node)
  /-- a mapping, untagged or with a tag such as `!Probe` -/
  | map (tag : Option String) (es : List (Key × Node))

/-- A loaded value. -/
inductive Value
  | atom (n : ℕ)
  /-- an `Eval` whose locals are the dictionary number `ctx` -/
  | lazy (ctx : ℕ) (code : String)
  | list (l : List Value)
  /-- an instance of `Object` or of a subclass, with its `data` -/
  | obj (data : String → Option Value)
  /-- a plain dictionary (only from a loader that falco did not change) -/
  | dict (data : Key → Option Value)

/-- A constructor given by the caller: `object_constructor(cls)` for a class with these default attributes (Probe.py, ProbeSchedule.py). -/
abbrev Ctor := String → Option Value

/-- The table of constructors of `yaml.SafeLoader`: whether mappings become Objects, the dictionary of locals of `!eval`, and the other tags. -/
structure Registry where
  mapToObject : Bool
  evalCtx : Option ℕ
  tags : String → Option Ctor

/-- The table when the process starts. -/
def stock : Registry := ⟨false, none, fun _ => none⟩

/-- yaml_loader.py:39-48 `_get_loader`: the class `SafeLoader` itself is changed. -/
def getLoader (reg : Registry) (ctx : ℕ) (ctors : String → Option Ctor) : Registry :=
  ⟨true, some ctx, fun t => match ctors t with
    | some c => some c
    | none => reg.tags t⟩

/-- `dict`: later entries win. -/
def toDict (es : List (Key × Value)) (k : Key) : Option Value := (es.reverse.find? fun e => e.1 = k).map Prod.snd

/-- A key that cannot be a keyword argument of a class: not a string, or `self`. -/
def badKey : Key → Bool
  | .str s => s = "self"
  | .other _ => true

/-- `noarg_constructor(**mapping)` (yaml_loader.py:27) for a class whose defaults are `defaults`: `TypeError` for keys that are not strings and for the key `self`; then
Object.py:15-19 with defaults that are not dictionaries or lists: the given value is kept. -/
def callClass (defaults : Ctor) (es : List (Key × Value)) : Except Err Value :=
  if es.any (fun e => badKey e.1) then .error .typeError
  else .ok (.obj fun k => match toDict es (.str k) with
    | some v => some v
    | none => defaults k)

mutual
/-- `construct_object`. -/
def construct (reg : Registry) : Node → Except Err Value
  | .scalar n => .ok (.atom n)
  | .eval code => match reg.evalCtx with
    | some ctx => .ok (.lazy ctx code)
    | none => .error .constructorError
  | .evalBad => .error .constructorError
  | .seq l => (constructList reg l).map .list
  | .map none es => (constructEntries reg es).bind fun vs => if reg.mapToObject then callClass (fun _ => none) vs else .ok (.dict (toDict vs))
  | .map (some t) es => match reg.tags t with
    | none => .error .constructorError
    | some c => (constructEntries reg es).bind fun vs => callClass c vs
/-- `construct_sequence`. -/
def constructList (reg : Registry) : List Node → Except Err (List Value)
  | [] => .ok []
  | n :: ns => (construct reg n).bind fun v => (constructList reg ns).map fun vs => v :: vs
/-- `construct_mapping`. -/
def constructEntries (reg : Registry) : List (Key × Node) → Except Err (List (Key × Value))
  | [] => .ok []
  | (k, n) :: es => (construct reg n).bind fun v => (constructEntries reg es).map fun vs => (k, v) :: vs
end

/-- yaml_loader.py:4-17 `load_from_str`: the changed table (it is changed before parsing) and the `data` of the result. -/
def loadFromStr (reg : Registry) (text : Node) (ctx : ℕ) (ctors : String → Option Ctor) : Except Err (String → Option Value) × Registry :=
  let reg' := getLoader reg ctx ctors
  ((construct reg' text).bind fun v => match v with
    | .obj d => .ok d
    | _ => .error .attributeError, reg')

/-- The process: the table, for each dictionary of locals the model-parameters object its name `mp` stands for, and the objects made so far. -/
structure World where
  reg : Registry
  mpOf : ℕ → Option ℕ
  objs : List (String → Option Value)

/-- ModelParameters.py:244-265 `from_yaml(text, context)`: `ctx` is the number of the dictionary `context` (a new number if the argument is absent).
`defaults` are the attributes that `__init__` sets (ModelParameters.py:183-206), with the classes' defaults; `probe` and `schedule` those of Probe and ProbeSchedule.
Of the new object only entries other than `data` are modelled (line 264 calls `__init__` again, which also stores the old defaults under the key `data`).  When loading fails the object
stays as first constructed. -/
def fromYaml (defaults probe schedule : Ctor) (w : World) (text : Node) (ctx : ℕ) : Except Err ℕ × World :=
  let id := w.objs.length
  let mpOf := Function.update w.mpOf ctx (some id)
  match loadFromStr w.reg text ctx (fun t => if t = "!Probe" then some probe else if t = "!ProbeSchedule" then some schedule else none) with
  | (.error e, reg') => (.error e, ⟨reg', mpOf, w.objs ++ [defaults]⟩)
  | (.ok data, reg') => (.ok id, ⟨reg', mpOf, w.objs ++ [fun k => match data k with
      | some v => some v
      | none => defaults k]⟩)

/-- The model-parameters object that the code of a lazy value sees under the name `mp` when it is evaluated (Eval.py:44: `eval(code, globals, locals)`). -/
def seenMp (w : World) : Value → Option ℕ
  | .lazy ctx _ => w.mpOf ctx
  | _ => none

end Verif.Yaml
