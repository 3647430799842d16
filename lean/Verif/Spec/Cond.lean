import Verif.Spec.Life
import Verif.Spec.Time
/-!
# Specification vocabulary for conditions
-/

set_option linter.unusedSectionVars false

namespace GS.Spec
variable {α κ W : Type _} [DecidableEq α] [DecidableEq κ]

/-- Number of units `q` completed since the current unit `ts` began, after the history
`log` of a clock: the current `ts` began with the last increment of `ts` or of a coarser
unit. -/
def elapsed (log : List TimeScale) (ts q : TimeScale) : Nat :=
  (log.reverse.takeWhile fun e => decide (e.val < ts.val)).count q

/-- The components are evaluated from left to right, each in the state left by the one
before, and each of them gives `b`. -/
inductive EachGives (v : View α κ W) (id : Option κ) (b : Bool) :
    List (Cond α κ W) → Store α κ → Store α κ → Prop
  | nil {st : Store α κ} : EachGives v id b [] st st
  | cons {c : Cond α κ W} {cs : List (Cond α κ W)} {st st1 st2 : Store α κ} :
      eval v id c st = (.ok b, st1) → EachGives v id b cs st1 st2 →
      EachGives v id b (c :: cs) st st2

/-- The first component not to give `b` (evaluated from left to right) gives `r`, and
leaves the state `st'`. -/
def FirstOther (v : View α κ W) (id : Option κ) (b : Bool) (cs : List (Cond α κ W))
    (st : Store α κ) (r : Except Err Bool) (st' : Store α κ) : Prop :=
  ∃ pre c post st1, cs = pre ++ c :: post ∧ EachGives v id b pre st st1 ∧
    eval v id c st1 = (r, st') ∧ r ≠ .ok b

mutual
/-- The Boolean formula of a condition tree, given the truth of its leaves. -/
def formula (truth : Cond α κ W → Prop) : Cond α κ W → Prop
  | .leaf o k => truth (.leaf o k)
  | .whileNot o f => ¬ truth (.leaf o (.func f))
  | .all _ args => formulaAll truth args
  | .any _ args => formulaAny truth args
  | .not _ c => ¬ formula truth c
  | .nwhen o c n => truth (.nwhen o c n)
/-- All of them. -/
def formulaAll (truth : Cond α κ W → Prop) : List (Cond α κ W) → Prop
  | [] => True
  | c :: cs => formula truth c ∧ formulaAll truth cs
/-- One of them. -/
def formulaAny (truth : Cond α κ W → Prop) : List (Cond α κ W) → Prop
  | [] => False
  | c :: cs => formula truth c ∨ formulaAny truth cs
end

mutual
/-- No leaf of the condition raises an exception (in the view `v`, with the owners
`own`). -/
def LeavesOk (v : View α κ W) (id : Option κ) (own : Nat → Option α) : Cond α κ W → Prop
  | .leaf o k => ∃ b, evalLeaf v id (own o) k = .ok b
  | .whileNot o f => ∃ b, f v id (own o) = .ok b
  | .all _ args => LeavesOkAll v id own args
  | .any _ args => LeavesOkAll v id own args
  | .not _ c => LeavesOk v id own c
  | .nwhen _ c _ => LeavesOk v id own c
/-- The same for all components. -/
def LeavesOkAll (v : View α κ W) (id : Option κ) (own : Nat → Option α) :
    List (Cond α κ W) → Prop
  | [] => True
  | c :: cs => LeavesOk v id own c ∧ LeavesOkAll v id own cs
end

mutual
/-- Wherever the object `o` occurs in the condition, it is `obj`. -/
def Uses (o : Nat) (obj : Cond α κ W) : Cond α κ W → Prop
  | .leaf x k => x = o → .leaf x k = obj
  | .whileNot x f => x = o → .whileNot x f = obj
  | .all x args => (x = o → .all x args = obj) ∧ UsesAll o obj args
  | .any x args => (x = o → .any x args = obj) ∧ UsesAll o obj args
  | .not x c => (x = o → .not x c = obj) ∧ Uses o obj c
  | .nwhen x c n => (x = o → .nwhen x c n = obj) ∧ Uses o obj c
/-- The same for all components. -/
def UsesAll (o : Nat) (obj : Cond α κ W) : List (Cond α κ W) → Prop
  | [] => True
  | c :: cs => Uses o obj c ∧ UsesAll o obj cs
end

/-- One evaluation of an `NWhen`: the execution id, what its component would give at
that moment, and what the `NWhen` gave. -/
structure NEval (κ : Type _) where
  id : Option κ
  component : Except Err Bool
  result : Except Err Bool

/-- The evaluations of the object `NWhen(c, n)` with identity `o`, oldest first, starting
with the object state `st0`.  Between evaluations anything may happen that does not touch
the object's own counter. -/
inductive NHistory (o : Nat) (c : Cond α κ W) (n : Int) (st0 : Store α κ) :
    List (NEval κ) → Store α κ → Prop
  | new : NHistory o c n st0 [] st0
  | other {l : List (NEval κ)} {st st' : Store α κ} : NHistory o c n st0 l st →
      (∀ i, st'.sat o i = st.sat o i) → NHistory o c n st0 l st'
  | eval {l : List (NEval κ)} {st : Store α κ} (v : View α κ W) (id : Option κ) :
      NHistory o c n st0 l st →
      NHistory o c n st0
        (l ++ [⟨id, (GS.eval v id c st).1, (GS.eval v id (.nwhen o c n) st).1⟩])
        (GS.eval v id (.nwhen o c n) st).2

/-- The number of evaluations under the id `i` with the property `p`. -/
def evals (i : Option κ) (p : NEval κ → Bool) (l : List (NEval κ)) : Nat :=
  l.countP fun e => decide (e.id = i) && p e

/-- The component was satisfied. -/
def NEval.hit : NEval κ → Bool
  | ⟨_, .ok true, _⟩ => true
  | _ => false

/-- The `NWhen` was satisfied. -/
def NEval.satisfied : NEval κ → Bool
  | ⟨_, _, .ok true⟩ => true
  | _ => false

end GS.Spec
