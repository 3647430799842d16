import Verif.Spec.Life
import Verif.Spec.Share
import Verif.RemoveBasic
/-!
# Specification vocabulary: several schedulers in one program

Schedulers are separate Python objects; what they can have in common are condition
objects, whose attributes (`Store`) exist once.
-/

set_option linter.unusedSectionVars false

namespace GS.Spec
variable {α κ W : Type _} [DecidableEq α] [DecidableEq κ]

/-- What can be done with a scheduler: `add_condition`; `remove_condition`; calling `run` and beginning its
generator; one internal step of the `k`-th generator obtained so far (so calls can be
interleaved at any point); anything else that changes the data of the scheduler (counters,
clocks, history, mode, the graph and the consideration queue, ...) or of the nodes but does
not concern basic conditions. -/
inductive Deed (α κ W : Type _) where
  | add (n : α) (c : Cond α κ W)
  | remove (n : α)
  | run (a : RunArgs α κ W)
  | next (k : Nat)
  | other (f : View α κ W → View α κ W)

/-- What is seen: what the `k`-th generator does, or that `run` raises an exception. -/
inductive Sight (α : Type _) where
  | event (k : Nat) (e : Event α)
  | failed (e : Err)

/-- A scheduler, the generators obtained from it, and what has been seen. -/
structure Seat (α κ W : Type _) where
  sys : Sys α κ W
  gens : List (Gen α κ W) := []
  seen : List (Sight α) := []

/-- One thing is done with the scheduler. -/
def Seat.act (u : Seat α κ W) : Deed α κ W → Seat α κ W
  | .add n c => { u with sys := u.sys.addBasic n c }
  | .remove n => { u with sys := u.sys.removeBasic n }
  | .run a => match u.sys.start a with
    | (s, .ok abs) => { u with sys := s, gens := u.gens ++ [⟨a, abs, .outer⟩] }
    | (s, .error e) => { u with sys := s, seen := u.seen ++ [.failed e] }
  | .next k => match u.gens[k]? with
    | none => u
    | some g => match u.sys.step g.args g.abs g.pc with
      | (s, pc, ev) => { sys := s, gens := u.gens.set k { g with pc := pc },
                         seen := u.seen ++ ev.toList.map (.event k) }
  | .other f => { u with sys := { u.sys with toView := f u.sys.toView } }

/-- One thing after the other. -/
def Seat.acts : List (Deed α κ W) → Seat α κ W → Seat α κ W
  | [], u => u
  | x :: xs, u => Seat.acts xs (u.act x)

/-- With the attributes of condition objects given by `st`. -/
def Seat.facing (u : Seat α κ W) (st : Store α κ) : Seat α κ W :=
  { u with sys := { u.sys with store := st } }

variable {ι : Type _} [DecidableEq ι]

/-- A program: the attributes of all condition objects, and schedulers. -/
structure Prog (ι α κ W : Type _) where
  store : Store α κ
  seat : ι → Seat α κ W

/-- Something is done with the scheduler `i`. -/
def Prog.act (p : Prog ι α κ W) (i : ι) (x : Deed α κ W) : Prog ι α κ W :=
  let u := ((p.seat i).facing p.store).act x
  { store := u.sys.store, seat := fun j => if j = i then u else p.seat j }

/-- A program is performed. -/
def Prog.perform : List (ι × Deed α κ W) → Prog ι α κ W → Prog ι α κ W
  | [], p => p
  | (i, x) :: xs, p => Prog.perform xs (p.act i x)

/-- What is done with the scheduler `i`. -/
def forSeat (i : ι) (xs : List (ι × Deed α κ W)) : List (Deed α κ W) :=
  xs.filterMap fun q => if q.1 = i then some q.2 else none

/-- The scheduler `i` in a program in which nothing is done with the other ones. -/
def Prog.alone (p : Prog ι α κ W) (i : ι) (xs : List (ι × Deed α κ W)) : Seat α κ W :=
  Seat.acts (forSeat i xs) ((p.seat i).facing p.store)

/-- The object is used by a termination condition given to `run`. -/
def ArgsUse (a : RunArgs α κ W) (o : Nat) : Prop :=
  Occurs o a.esu ∨ Occurs o a.seq ∨ ∃ c ∈ a.others, Occurs o c

/-- The object is mentioned in what is done. -/
def DeedUse : Deed α κ W → Nat → Prop
  | .add _ c, o => Occurs o c
  | .run a, o => ArgsUse a o
  | _, _ => False

/-- The object is used by the scheduler. -/
def SeatUse (u : Seat α κ W) (o : Nat) : Prop :=
  (∃ n c, (n, c) ∈ u.sys.conds ∧ Occurs o c) ∨ ∃ g ∈ u.gens, ArgsUse g.args o

/-- The condition object is used by the scheduler `i` now or in what is to be done. -/
def Needs (p : Prog ι α κ W) (xs : List (ι × Deed α κ W)) (i : ι) (o : Nat) : Prop :=
  SeatUse (p.seat i) o ∨ ∃ x, (i, x) ∈ xs ∧ DeedUse x o

/-- No two schedulers have a condition object in common (and all the objects exist). -/
structure NoneShared (p : Prog ι α κ W) (xs : List (ι × Deed α κ W)) : Prop where
  apart : ∀ i j, i ≠ j → ∀ o, Needs p xs i o → ¬ Needs p xs j o
  exist : ∀ i o, Needs p xs i o → o < p.store.fresh

end GS.Spec
