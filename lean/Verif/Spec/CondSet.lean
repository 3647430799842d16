import Verif.CondSet
/-!
# What a `ConditionSet` should contain

An abstract condition set is the list of the conditions in it with their owners, in the
order in which they were added.
-/

namespace GS.Spec
variable {α κ W : Type _} [DecidableEq α] [DecidableEq κ]

/-- Conditions with their owners, in order of addition. -/
abbrev Entries (α κ W : Type _) := List (α × AnyCond α κ W)

/-- The basic conditions added for `n`, oldest first. -/
def basicsOf (n : α) : Entries α κ W → List (Cond α κ W)
  | [] => []
  | (m, .basic c) :: es => if m = n then c :: basicsOf n es else basicsOf n es
  | (_, .structural _) :: es => basicsOf n es

/-- The structural conditions added for `n`, oldest first. -/
def structsOf (n : α) : Entries α κ W → List (SCond α)
  | [] => []
  | (_, .basic _) :: es => structsOf n es
  | (m, .structural c) :: es => if m = n then c :: structsOf n es else structsOf n es

/-- All structural conditions, oldest first. -/
def allStructs : Entries α κ W → List (SCond α)
  | [] => []
  | (_, .basic _) :: es => allStructs es
  | (_, .structural c) :: es => c :: allStructs es

/-- The combined view of a node: the basic condition first, then the structural ones; a
single condition is not wrapped in a list. -/
def shown : Option (Cond α κ W) → List (SCond α) → Option (Shown α κ W)
  | none, [] => none
  | some b, [] => some (.one (.basic b))
  | none, [c] => some (.one (.structural c))
  | none, cs => some (.many (cs.map .structural))
  | some b, cs => some (.many (.basic b :: cs.map .structural))

/-- The set `s` contains exactly the entries `es` (a basic condition is overridden by a
later one for the same owner), as seen through each of its attributes. -/
structure Holds (s : CSet α κ W) (es : Entries α κ W) : Prop where
  /-- `conditions_basic` -/
  basic : ∀ n, Dict.get? s.basic n = (basicsOf n es).getLast?
  /-- `conditions_structural` -/
  structural : ∀ n, Dict.get? s.structural n =
    if structsOf n es = [] then none else some (structsOf n es)
  /-- `structural_condition_order` -/
  order : s.order = allStructs es
  /-- `conditions[n]`, `n in set` -/
  view : ∀ n, s.getItem n = shown (basicsOf n es).getLast? (structsOf n es)
  /-- dicts list every key once -/
  basicWF : Dict.WF s.basic
  structuralWF : Dict.WF s.structural
  viewWF : Dict.WF s.conditions.view

/-- The entries of a dict of lists of conditions, in iteration order. -/
def listed (d : Dict α (List (AnyCond α κ W))) : Entries α κ W :=
  d.flatMap fun p => p.2.map fun c => (p.1, c)

/-- Without the basic conditions of `n`. -/
def dropBasic (n : α) : Entries α κ W → Entries α κ W
  | [] => []
  | (m, .basic c) :: es => if m = n then dropBasic n es else (m, .basic c) :: dropBasic n es
  | (m, .structural c) :: es => (m, .structural c) :: dropBasic n es

/-- Without the structural condition object `o`. -/
def dropStruct (o : OId) : Entries α κ W → Entries α κ W
  | [] => []
  | (m, .basic c) :: es => (m, .basic c) :: dropStruct o es
  | (m, .structural c) :: es =>
    if c.o = o then dropStruct o es else (m, .structural c) :: dropStruct o es

end GS.Spec
