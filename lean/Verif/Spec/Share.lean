import Verif.Scheduler
/-!
# Specification vocabulary: condition objects shared between conditions
-/

namespace GS.Spec
variable {α κ W : Type _} [DecidableEq α] [DecidableEq κ]

mutual
/-- The object `o` is the condition or one of its components, at any depth. -/
def Occurs (o : Nat) : Cond α κ W → Prop
  | .leaf x _ => o = x
  | .whileNot x _ => o = x
  | .all x args => o = x ∨ OccursAny o args
  | .any x args => o = x ∨ OccursAny o args
  | .not x c => o = x ∨ Occurs o c
  | .nwhen x c _ => o = x ∨ Occurs o c
/-- It occurs in one of them. -/
def OccursAny (o : Nat) : List (Cond α κ W) → Prop
  | [] => False
  | c :: cs => Occurs o c ∨ OccursAny o cs
end

/-- Two conditions have no object in common. -/
def Apart (c d : Cond α κ W) : Prop := ∀ o, Occurs o c → ¬ Occurs o d

/-- An evaluation of the condition in question, or of another one, in any situation and
under any execution id. -/
inductive Probe (α κ W : Type _) where
  | this (v : View α κ W) (id : Option κ)
  | other (v : View α κ W) (id : Option κ) (d : Cond α κ W)

/-- What the condition `c` gives, each time it is evaluated, when evaluations happen one
after the other beginning with the object attributes `st`. -/
def answers (c : Cond α κ W) : List (Probe α κ W) → Store α κ → List (Except Err Bool)
  | [], _ => []
  | .this v id :: ps, st => (eval v id c st).1 :: answers c ps (eval v id c st).2
  | .other v id d :: ps, st => answers c ps (eval v id d st).2

/-- Without the evaluations of other conditions. -/
def ownOnly (ps : List (Probe α κ W)) : List (Probe α κ W) :=
  ps.filter fun p => match p with | .this _ _ => true | .other _ _ _ => false

mutual
/-- The condition is built with `All`, `Any` and `Not` from built-in conditions other than
`EveryNCalls`, `TimeInterval` and `NWhen`: it looks neither at its owner nor at its own
history. -/
def Plain : Cond α κ W → Prop
  | .leaf _ (.func _) => False
  | .leaf _ (.everyNCalls _ _) => False
  | .leaf _ (.timeInterval _ _ _ _ _) => False
  | .leaf _ _ => True
  | .whileNot _ _ => False
  | .all _ args => PlainAll args
  | .any _ args => PlainAll args
  | .not _ c => Plain c
  | .nwhen _ _ _ => False
/-- All of them are. -/
def PlainAll : List (Cond α κ W) → Prop
  | [] => True
  | c :: cs => Plain c ∧ PlainAll cs
end

end GS.Spec
