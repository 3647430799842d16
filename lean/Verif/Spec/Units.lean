import Verif.Units
/-!
# Specification vocabulary for durations as they are written
-/

set_option linter.unusedSectionVars false

namespace GS.Spec

/-- `x` is a whole number. -/
def Whole (x : Rat) : Prop := ∃ k : Int, x = k

/-- The unit an argument names. -/
def UnitIs (reg : Registry) : UnitArg → Rat → Prop
  | .unit v, u => v = u
  | .name s, u => reg.named s = some u

/-- `Written reg n unit m u`: the argument `n`, given together with `unit`, says "`m` times
a unit of length `u`": a number or a text without unit counts `unit`s, a quantity or a text
with a unit brings its own. -/
inductive Written (reg : Registry) : DurArg → UnitArg → Rat → Rat → Prop
  | number {r : Rat} {unit : UnitArg} {u : Rat} :
      UnitIs reg unit u → Written reg (.num r) unit r u
  | digits {s : String} {r : Rat} {unit : UnitArg} {u : Rat} :
      reg.parse s = .number (some r) → UnitIs reg unit u → Written reg (.text s) unit r u
  | text {s : String} {m u : Rat} {unit : UnitArg} :
      reg.parse s = .quantity ⟨m, u⟩ → Written reg (.text s) unit m u
  | quantity {m u : Rat} {unit : UnitArg} : Written reg (.qty ⟨m, u⟩) unit m u

/-- The registry lists units of positive length, the largest first. -/
def Sorted (reg : Registry) : Prop :=
  (∀ u ∈ reg.units, 0 < u) ∧ reg.units.Pairwise fun u v => v ≤ u

/-- The known units that are not longer than `u` divide it. -/
def Divided (reg : Registry) (u : Rat) : Prop :=
  ∀ v ∈ reg.units, v ≤ u → ∃ k : Int, u = k * v

/-- `g` is the greatest common divisor of some durations: all are whole multiples of it,
and it is a whole multiple of every other number with this property. -/
def GreatestCommon (durations : List Rat) (g : Rat) : Prop :=
  0 ≤ g ∧ (∀ d ∈ durations, ∃ k : Int, d = k * g) ∧
  ∀ c, (∀ d ∈ durations, ∃ k : Int, d = k * c) → ∃ k : Int, g = k * c

end GS.Spec
