import Verif.Spec.Cond
import Verif.Convenience
/-!
# Specification vocabulary: finished nodes and values of attributes
-/

set_option linter.unusedSectionVars false

namespace GS.Spec
variable {α κ W : Type _} [DecidableEq α] [DecidableEq κ]

/-- The nodes that `WhenFinishedAny(ds...)` and `WhenFinishedAll(ds...)` are about. -/
def Meant (nodes ds : List α) : List α := if ds = [] then nodes else ds

/-- `d.is_finished(id)` returns `b`. -/
def Says (v : View α κ W) (id : Option κ) (b : Bool) (d : α) : Prop :=
  v.world.finished d id = .ok b

/-- `d.is_finished(id)` raises `e`, or `d` has no such method and `e` is the
`ConditionError` reported for this. -/
def Complains (v : View α κ W) (id : Option κ) (e : Err) (d : α) : Prop :=
  (v.world.finished d id = .error e ∧ e ≠ .attributeError) ∨
  (v.world.finished d id = .error .attributeError ∧ e = .conditionError)

/-- `x[i1][i2]...` is `y`. -/
inductive Leads : PyVal → List Idx → PyVal → Prop
  | here {x : PyVal} : Leads x [] x
  /-- From the front of a list. -/
  | front {l : List PyVal} {i : Nat} {x y : PyVal} {is : List Idx} :
      l[i]? = some x → Leads x is y → Leads (.seq l) (.int i :: is) y
  /-- From the end of a list: `l[-1]` is the last element. -/
  | back {l : List PyVal} {i : Nat} {x y : PyVal} {is : List Idx} :
      l.reverse[i]? = some x → Leads x is y → Leads (.seq l) (.int (-(i + 1 : Int)) :: is) y
  | key {d : List (Idx × PyVal)} {k : Idx} {x y : PyVal} {is : List Idx} :
      Dict.get? d k = some x → Leads x is y → Leads (.dict d) (k :: is) y

/-- The value of the parameter `p` of `d`, as the custom getter or the attribute gives
it. -/
def ParamIs (w : World α κ W) (id : Option κ) (d : α) (p : Nat) (getter : Option Nat)
    (x : PyVal) : Prop :=
  match getter with
  | none => w.attr d p = .ok x
  | some g => w.getter g d p id = .ok x

/-- `x` and `t` are equal within the tolerances. -/
def CloseTo (x t atol rtol : Rat) : Prop := (x - t).abs ≤ atol + rtol * t.abs

/-- The comparison by name. -/
def Compares (x t atol rtol : Rat) : String → Prop
  | "<" => x < t
  | "<=" => x ≤ t
  | ">" => t < x
  | ">=" => t ≤ x
  | "==" => CloseTo x t atol rtol
  | "!=" => ¬ CloseTo x t atol rtol
  | _ => False

/-- The subscripts that the argument `indices` means. -/
def MeantIndices : IndicesArg → List Idx
  | .none => []
  | .timeScale ts => [.int ts.val]
  | .single i => [.int i]
  | .many l => l

end GS.Spec
