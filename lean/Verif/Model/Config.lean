import Verif.Model.Arr
import Mathlib.Data.Rat.Defs
import Mathlib.Algebra.Order.Ring.Rat
import Mathlib.Logic.Function.Basic

/-! # Model of the configuration objects (falco/config/Object.py, falco/config/Eval.py, falco/config/ModelParameters.py) and validators (falco/check.py) -/

namespace Verif.Config

/-! ## Lazy values (falco/config/Eval.py) -/

/-- Exceptions an injected expression can raise itself. -/
inductive Err where
  | attribute
  | other (n : ℕ)
  deriving DecidableEq

/-- The outcome of reading an attribute. `circular` is the ValueError of Eval.py:38-39, `recursion` Python's RecursionError. -/
inductive Outcome (V : Type) where
  | value (v : V)
  | error (e : Err)
  | circular
  | recursion

/-- An injected expression as a tree of attribute reads: it returns, raises, or reads an attribute of `mp` and goes on with its value; `dflt` is the default
of `getattr(mp, name, dflt)`, used if the read raises AttributeError. Simplifications: attributes of nested objects are names (paths) too, and expressions
do not modify `mp`. -/
inductive Prog (V : Type) where
  | ret (v : V)
  | fail (e : Err)
  | read (name : String) (dflt : Option V) (k : V → Prog V)

/-- An entry of the configuration. -/
inductive Item (V : Type) where
  | missing
  | plain (v : V)
  | lazy (code : Prog V)

/-- The `in_progress` flags of the lazy entries (Eval.py:29). -/
abbrev Flags := String → Bool

variable {V : Type}

/-- `eval(self.code, ...)` (Eval.py:43) with `rd` for reading attributes. -/
def runProg (rd : String → Flags → Outcome V × Flags) : Prog V → Flags → Outcome V × Flags
  | .ret v, s => (.value v, s)
  | .fail e, s => (.error e, s)
  | .read c d k, s =>
    match rd c s with
    | (.value v, s') => runProg rd (k v) s'
    | (.error .attribute, s') =>
      match d with
      | some v => runProg rd (k v) s'
      | none => (.error .attribute, s')
    | (r, s') => (r, s')

/-- falco/config/Object.py:24-39 `__getattr__` and falco/config/Eval.py:36-46 `evaluate`. `limit` bounds the depth of nested evaluations (Python's recursion limit; a plain read also
costs one). -/
def readAttr (cfg : String → Item V) : ℕ → String → Flags → Outcome V × Flags
  | 0, _, s => (.recursion, s)
  | limit + 1, c, s =>
    match cfg c with
    | .missing => (.error .attribute, s)
    | .plain v => (.value v, s)
    | .lazy p =>
      if s c then (.circular, s)
      else
        let (r, s') := runProg (readAttr cfg limit) p (Function.update s c true)
        (r, Function.update s' c false)

/-! ## Objects (falco/config/Object.py) -/

/-- A Python value. `obj attrs data` is an instance of `Object`: its `__dict__` without the key `data`, and the dictionary `self.data`. Dictionaries are
functions (the order of keys is not modelled). -/
inductive Val where
  | atom (n : ℕ)
  | list (l : List ℕ)
  | dict (d : String → Option Val)
  | obj (attrs : String → Option Val) (data : String → Option Val)

mutual
/-- `deepmerge.conservative_merger.merge(base, nxt)` (deepmerge 2.0): dictionaries are merged key by key, lists are concatenated, otherwise the value of
`base` is kept. Simplification: lists of atoms; sets are left out. -/
def merge : Val → Val → Val
  | .dict f, .dict g => .dict fun k => mergeOpt (f k) (g k)
  | .list l, .list l' => .list (l ++ l')
  | b, _ => b
/-- One key of two dictionaries. -/
def mergeOpt : Option Val → Option Val → Option Val
  | some a, some b => some (merge a b)
  | some a, none => some a
  | none, x => x
end

/-- Object.py:15-19 `__init__` of an object whose attributes so far (the defaults of the subclass) are `attrs` and that was not initialised before. -/
def construct (attrs : String → Option Val) (kwargs : String → Option Val) : Val :=
  .obj (fun _ => none) fun k => mergeOpt (kwargs k) (attrs k)

/-- The value of each keyword argument as the caller sees it after the constructor returned: nested dictionaries were merged in place. -/
def kwargsAfter (attrs : String → Option Val) (kwargs : String → Option Val) (k : String) : Option Val :=
  match kwargs k with
  | some (.dict f) => mergeOpt (some (.dict f)) (attrs k)
  | x => x

/-- `obj.name`: `__dict__` first, then `__getattr__` (Object.py:24-39). Names of methods are not modelled. -/
def getAttr (o : Val) (name : String) : Except PyErr Val :=
  match o with
  | .obj attrs data =>
    match attrs name with
    | some v => .ok v
    | none => if name = "data" then .ok (.dict data) else
      match data name with
      | some v => .ok v
      | none => .error .attributeError
  | _ => .error .attributeError

/-- `obj.name = v` -/
def setAttr (o : Val) (name : String) (v : Val) : Val :=
  match o with
  | .obj attrs data => .obj (Function.update attrs name (some v)) data
  | x => x

/-- `obj['name']` (Object.py:41-42): `__getattr__` is called directly, so `obj['data']` replaces the dictionary by an empty one (Object.py:30-32). -/
def getItem (o : Val) (name : String) : Except PyErr Val × Val :=
  match o with
  | .obj attrs data =>
    if name = "data" then (.ok (.dict fun _ => none), .obj attrs fun _ => none)
    else
      match data name with
      | some v => (.ok v, o)
      | none => (.error .attributeError, o)
  | x => (.error .typeError, x)

/-- `obj['name'] = v` (Object.py:44-45) -/
def setItem (o : Val) (name : String) (v : Val) : Val :=
  match o with
  | .obj attrs data => .obj attrs (Function.update data name (some v))
  | x => x

/-- ModelParameters.py:16-25 `_BaseDm1()`: an empty `data`, and defaults set as attributes afterwards. Atoms stand for the values. -/
def baseDm1 : Val :=
  .obj (fun k => if k = "Dstop" then some (.atom 0) else if k = "dx" then some (.atom 1) else if k = "NdmPad" then some (.atom 2)
    else if k = "useDifferentiableModel" then some (.atom 3) else if k = "surfFitMethod" then some (.atom 4) else if k = "ppact" then some (.atom 5) else none)
    fun _ => none

/-- ModelParameters.py:183 and 212: `self.dm1 = _spec_arg("dm1", kwargs, self._BaseDm1())` and `super().__init__(**kwargs)`; only the entry for `dm1`
is modelled. `_spec_arg` (falco/util.py:288-318) returns the keyword argument if there is one. -/
def modelParameters (kwargs : String → Option Val) : Val :=
  construct (fun k => if k = "dm1" then some ((kwargs "dm1").getD baseDm1) else none) kwargs

/-! ## Validators (falco/check.py) -/

/-- A double: finite (as a rational), infinite or NaN. -/
inductive Flt where
  | fin (q : ℚ)
  | inf (pos : Bool)
  | nan

/-- Argument values told apart by the validators. Simplification: arrays have a shape and a dtype kind only; `Decimal`, `Fraction` and user-defined
number classes are left out. -/
inductive Arg where
  | bool (b : Bool)
  | int (n : ℤ)
  | npInt (n : ℤ)
  | npBool (b : Bool)
  | float (x : Flt)
  | npFloat (x : Flt)
  | complex (re im : Flt)
  | str (s : String)
  | bytes (s : String)
  | none
  | dict
  | array (shape : List ℕ) (kind : Char)

/-- `x <= 0` for doubles: false for NaN. -/
def Flt.leZero : Flt → Bool
  | .fin q => q ≤ 0
  | .inf p => !p
  | .nan => false

/-- `x < 0` -/
def Flt.ltZero : Flt → Bool
  | .fin q => q < 0
  | .inf p => !p
  | .nan => false

/-- `isinstance(var, numbers.Number)`: Python's and numpy's numbers, and `bool` (a subclass of `int`), but not `np.bool_`. -/
def Arg.isNumber : Arg → Bool
  | .bool _ | .int _ | .npInt _ | .float _ | .npFloat _ | .complex _ _ => true
  | _ => false

/-- `np.isrealobj(var)` for numbers -/
def Arg.isReal : Arg → Bool
  | .complex _ _ => false
  | _ => true

/-- `isinstance(var, (int, np.integer))` (check.py:15) -/
def Arg.isInt : Arg → Bool
  | .bool _ | .int _ | .npInt _ => true
  | _ => false

/-- `var <= 0` (defined for real numbers) -/
def Arg.leZero : Arg → Bool
  | .bool b => !b
  | .int n | .npInt n => n ≤ 0
  | .float x | .npFloat x => x.leZero
  | _ => false

/-- `var < 0` -/
def Arg.ltZero : Arg → Bool
  | .int n | .npInt n => n < 0
  | .float x | .npFloat x => x.ltZero
  | _ => false

/-- The argument `vname`. -/
inductive VName where
  | str
  | bytes
  | other

/-- What a validator call does: return a value, raise the supplied exception, `CheckException` or TypeError. -/
inductive CheckRes where
  | ret (a : Arg)
  | supplied
  | check
  | typeError

/-- `raise vexc(vname + ' must ...')`: adding a string to bytes raises TypeError instead. -/
def raiseVexc : VName → CheckRes
  | .str => .supplied
  | _ => .typeError

/-- check.py:18-38 `_checkname` and `_checkexc`, then the conditions in order, the first that fails raising. `excOk`: `vexc` is a subclass of Exception. -/
def validate (conds : List (Arg → Bool)) (var : Arg) (vname : VName) (excOk : Bool) : CheckRes :=
  match vname with
  | .other => .check
  | _ => if !excOk then .check else if conds.all fun c => c var then .ret var else raiseVexc vname

/-- check.py:103-125 -/
def realPositiveScalar := validate [Arg.isNumber, Arg.isReal, fun v => !v.leZero]
/-- check.py:255-275 -/
def realScalar := validate [Arg.isNumber, Arg.isReal]
/-- check.py:278-300 -/
def realNonnegativeScalar := validate [Arg.isNumber, Arg.isReal, fun v => !v.ltZero]
/-- check.py:303-325 -/
def positiveScalarInteger := validate [Arg.isNumber, Arg.isInt, fun v => !v.leZero]
/-- check.py:328-350 -/
def nonnegativeScalarInteger := validate [Arg.isNumber, Arg.isInt, fun v => !v.ltZero]
/-- check.py:353-373 -/
def scalarInteger := validate [Arg.isNumber, Arg.isInt]
/-- check.py:376-394 -/
def string := validate [fun v => match v with | .str _ | .bytes _ => true | _ => false]
/-- check.py:397-415 -/
def boolean := validate [fun v => match v with | .bool _ => true | _ => false]
/-- check.py:418-436 -/
def dictionary := validate [fun v => match v with | .dict => true | _ => false]

/-- `np.asarray(var)`: shape and dtype kind. Strings, None and dictionaries become zero-dimensional. -/
def Arg.asarray : Arg → List ℕ × Char
  | .bool _ | .npBool _ => ([], 'b')
  | .int _ | .npInt _ => ([], 'i')
  | .float _ | .npFloat _ => ([], 'f')
  | .complex _ _ => ([], 'c')
  | .str _ => ([], 'U')
  | .bytes _ => ([], 'S')
  | .none | .dict => ([], 'O')
  | .array s k => (s, k)

/-- The array validators return `np.asarray(var)`. -/
def validateArray (conds : List (List ℕ × Char → Bool)) (var : Arg) (vname : VName) (excOk : Bool) : CheckRes :=
  match vname with
  | .other => .check
  | _ => if !excOk then .check else if conds.all fun c => c var.asarray then .ret (.array var.asarray.1 var.asarray.2) else raiseVexc vname

/-- check.py:128-152 -/
def realArray := validateArray [fun a => a.1.length ≠ 0, fun a => a.2 ≠ 'c', fun a => "biuf".toList.contains a.2]
/-- check.py:155-176 (the second condition, `isrealobj or iscomplexobj`, is always true) -/
def oneDArray := validateArray [fun a => a.1.length = 1]
/-- check.py:179-200 -/
def twoDArray := validateArray [fun a => a.1.length = 2]
/-- check.py:203-227 -/
def twoDSquareArray := validateArray [fun a => a.1.length = 2, fun a => a.1[0]? = a.1[1]?]
/-- check.py:230-252 -/
def threeDArray := validateArray [fun a => a.1.length = 3]

end Verif.Config
