import Verif.Model.Config

/-! # `Object.merge` (falco/config/Object.py:21-22) -/

namespace Verif.Config

mutual
/-- `deepmerge.always_merger.merge(base, nxt)` (deepmerge 2.0): dictionaries are merged key by key, lists are concatenated, otherwise
(also when the types differ, and for two objects) `nxt` replaces `base`. Simplification as in `merge`: lists of atoms, no sets; that
nested dictionaries of the argument become part of the configuration without being copied is not modelled. -/
def always : Val → Val → Val
  | .dict f, .dict g => .dict fun k => alwaysOpt (f k) (g k)
  | .list l, .list l' => .list (l ++ l')
  | _, v => v
/-- One key of two dictionaries. -/
def alwaysOpt : Option Val → Option Val → Option Val
  | some a, some b => some (always a b)
  | some a, none => some a
  | none, x => x
end

/-- falco/config/Object.py:21-22 `obj.merge(**kwargs)`: `self.data` changes, attributes assigned by field syntax do not. -/
def mergeObj (o : Val) (kwargs : String → Option Val) : Val :=
  match o with
  | .obj attrs data => .obj attrs fun k => alwaysOpt (data k) (kwargs k)
  | x => x

end Verif.Config
