import Verif.Scheduler
/-!
# Specification vocabulary for runs

A run is described by its history (`History`): the list of what happened, oldest first,
each entry with the scheduler's state before and after it.  Nothing here refers to the
counters or to the clock.
-/

set_option linter.unusedSectionVars false

namespace GS.Spec
variable {α κ W β γ : Type _} [DecidableEq α] [DecidableEq κ]

/-- What happens while a run is suspended leaves `f` alone. -/
def Keeps (E : Sys α κ W → Sys α κ W → Prop) (f : Sys α κ W → β) : Prop :=
  ∀ s s', E s s' → f s' = f s

/-- The part of a list after the last element satisfying `p` (all of it if there is
none). -/
def afterLast (p : β → Bool) (l : List β) : List β :=
  (l.reverse.takeWhile fun x => !p x).reverse

/-- Selections of nodes in a run, in order: every node that was put into an execution
set, also into the one being chosen at the end of the history. -/
def selections (h : History α κ W) : List α := h.filterMap fun e => e.ev.add?

/-- The sets yielded by the run, in order. -/
def yields (h : History α κ W) : List (List α) := h.filterMap fun e => e.ev.yield?

/-- An entry at which a pass begins. -/
def isPassStart (e : Entry α κ W) : Bool := decide (e.ev = .passStart)

/-- The history of the current pass. -/
def currentPass (h : History α κ W) : History α κ W := afterLast isPassStart h

/-- The selections since `n` was last selected (all of them if it was not). -/
def since (n : α) (l : List α) : List α := afterLast (fun x => decide (x = n)) l

/-- The number of elements (of a list of sets) that contain `n`. -/
def setsWith (n : α) (l : List (List α)) : Nat := l.countP fun s => decide (n ∈ s)

/-- The positions in the consideration queue from which sets were chosen (a choice
begun), in order. -/
def setsConsidered (h : History α κ W) : List Nat :=
  h.filterMap fun e => match e.ev with | .consider i _ => some i | _ => none

/-- `l` with `x` added to its last element. -/
def addToLast (l : List (List β)) (x : β) : List (List β) :=
  match l with
  | [] => []
  | [p] => [p ++ [x]]
  | p :: q :: ps => p :: addToLast (q :: ps) x

/-- The sets yielded in each pass. -/
def passYields (h : History α κ W) : List (List (List α)) :=
  h.foldl (fun ps e =>
    if e.ev = .passStart then ps ++ [[]]
    else match e.ev.yield? with
      | some y => addToLast ps y
      | none => ps) []

/-- The evaluation of a condition in a state gives the Boolean `b`. -/
def Evaluates (s : Sys α κ W) (id : Option κ) (c : Cond α κ W) (b : Bool) : Prop :=
  (eval s.toView id c s.store).1 = .ok b

/-- The condition of `n` in a state is satisfied (`b = true`) or not (`b = false`). -/
def NodeCond (s : Sys α κ W) (id : Option κ) (n : α) (b : Bool) : Prop :=
  ∃ c, Dict.get? s.conds n = some c ∧ Evaluates s id c b

end GS.Spec
