import Verif.Condition
/-!
# Model of the constructors of `All` and `Any` (condition.py:1192-1194, 1225-1227)
-/

set_option linter.unusedSectionVars false

namespace GS
variable {α κ W C : Type _}

/-- The value of a keyword argument: a condition, or a list (any iterable) of conditions.
Simplification: conditions that define `__iter__` themselves are left out. -/
inductive KwValue (C : Type _) where
  | one (c : C)
  | many (cs : List C)

/-- condition.py:1193, 1226 `args += tuple(*[v for k, v in dependencies.items()])`: `tuple`
takes at most one argument, which must be iterable; a condition is not. -/
def compositeArgs (args : List C) (dependencies : List (String × KwValue C)) : Except Err (List C) :=
  match dependencies with
  | [] => .ok args
  | [(_, .many cs)] => .ok (args ++ cs)
  | [(_, .one _)] => .error .typeError
  | _ :: _ :: _ => .error .typeError

/-- condition.py:1192-1194 `All.__init__`; `o` is the new object. -/
def newAll (o : Nat) (args : List (Cond α κ W)) (dependencies : List (String × KwValue (Cond α κ W))) :
    Except Err (Cond α κ W) :=
  match compositeArgs args dependencies with
  | .ok cs => .ok (.all o cs)
  | .error e => .error e

/-- condition.py:1225-1227 `Any.__init__`. -/
def newAny (o : Nat) (args : List (Cond α κ W)) (dependencies : List (String × KwValue (Cond α κ W))) :
    Except Err (Cond α κ W) :=
  match compositeArgs args dependencies with
  | .ok cs => .ok (.any o cs)
  | .error e => .error e

end GS
