import Verif.Composite
/-!
# Specification vocabulary: the conditions named in a call of `All` or `Any`
-/

namespace GS.Spec
variable {C : Type _}

/-- The conditions a user names in a call: the positional ones, then those given by keyword. -/
def named (args : List C) (dependencies : List (String × KwValue C)) : List C :=
  args ++ dependencies.flatMap fun p => match p.2 with
    | .one c => [c]
    | .many cs => cs

/-- Calls the constructor accepts: no keyword, or one keyword with a list. -/
def PlainCall (dependencies : List (String × KwValue C)) : Prop :=
  dependencies = [] ∨ ∃ k cs, dependencies = [(k, .many cs)]

end GS.Spec
