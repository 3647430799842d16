import Verif.GSC
import Verif.Args
/-!
# Model of `CustomGraphStructureCondition` (condition.py:2644-2677)
-/

set_option linter.unusedSectionVars false

namespace GS
variable {α A : Type _} [DecidableEq α]

/-- A user's function on graphs: its signature, and what it does when it is called with or
without the condition object (`A` is what it can read off that object: the owner and the
attributes).  Simplification: when it raises, its effects on set objects are not
represented. -/
structure UserFn (α A : Type _) where
  sig : Sig
  body : Option A → HG α → Except Err (HG α)

/-- Python accepts a call with `k` positional arguments (`Sig.Accepts`, see
`acceptsPos_iff`). -/
def acceptsPos (sig : Sig) (k : Nat) : Bool :=
  (sig.hasVarPositional || decide (k ≤ sig.positional.length)) &&
  sig.all fun p => p.dflt || decide (p.kind = .varPositional) || decide (p.kind = .varKeyword) ||
    decide (p ∈ sig.positional.take k)

/-- condition.py:2654-2664: the constructor; `none` is a value that is not callable. -/
def newCustom (f : Option (UserFn α A)) : Except Err (UserFn α A) :=
  match f with
  | none => .error .conditionError
  | some f => .ok f

/-- condition.py:2666-2677 `CustomGraphStructureCondition._process`. -/
def UserFn.process (f : UserFn α A) (self : A) (g : HG α) : Except Err (HG α) :=
  if "self" ∈ f.sig.map (·.name) then
    if (f.sig.map (·.name)).head? ≠ some "self" then .error .conditionError
    else if acceptsPos f.sig 2 then f.body (some self) g else .error .typeError
  else if acceptsPos f.sig 1 then f.body none g else .error .typeError

/-- condition.py:2608-2641 `modify_graph`: `_preprocess` and `_postprocess` are those of
the base class.  `owner` is the value of the attribute. -/
def UserFn.modifyGraph (f : UserFn α A) (owner : Option α) (self : A) (s : HG α) :
    Except Err (HG α) :=
  match owner with
  | none => .error .conditionError
  | some _ => f.process self s.clone

/-- The condition object with identity `o` for the scheduler (`Verif/CondSet.lean`); `attrs`
is what the object shows when it has an owner. -/
def UserFn.toSCond (f : UserFn α A) (attrs : α → A) (o : OId) : SCond α :=
  { o := o, nodes := [], apply := fun n g =>
      match f.modifyGraph (some n) (attrs n) (HG.load g) with
      | .ok s => .ok s.value
      | .error e => .error e }

end GS
