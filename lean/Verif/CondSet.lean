import Verif.Condition
import Verif.Graph
/-!
# Model of `ConditionSet` (condition.py:622-924)
-/

set_option linter.unusedSectionVars false

namespace GS
variable {α κ W : Type _} [DecidableEq α] [DecidableEq κ]

/-- condition.py:2551-2641 `GraphStructureCondition`: an object with an identity; `nodes`
are the subject nodes that may not own it (`_GSCUsingNodes._validate_owner`, 2699-2704;
empty for a `CustomGraphStructureCondition`); `apply owner g` is `modify_graph(g)` when
`owner` is its owner (`Verif/GSC.lean` defines it for the built-in classes).
Simplification: custom functions depend only on the owner and the graph. -/
structure SCond (α : Type _) where
  o : OId
  nodes : List α
  apply : α → Graph α → Except Err (Graph α)

/-- A basic or structural condition object. -/
inductive AnyCond (α κ W : Type _) where
  | basic (c : Cond α κ W)
  | structural (c : SCond α)

/-- A value of the `conditions` view: one condition, or a list (condition.py:886-924). -/
inductive Shown (α κ W : Type _) where
  | one (c : AnyCond α κ W)
  | many (cs : List (AnyCond α κ W))

/-- condition.py:660-683: the attributes of a `ConditionSet`, together with the
attributes of condition objects: `store` for basic conditions, `owners` for structural
ones (two kinds of objects, so their identities are separate). -/
structure CSet (α κ W : Type _) where
  basic : Dict α (Cond α κ W)
  structural : Dict α (List (SCond α))
  order : List (SCond α)
  view : Dict α (Shown α κ W)
  rebuild : Bool
  store : Store α κ
  owners : OId → Option α

/-- `list.remove(x)` up to identity: the first occurrence; `none` for `ValueError`. -/
def removeObj (o : OId) : List (SCond α) → Option (List (SCond α))
  | [] => none
  | c :: cs => if c.o = o then some cs else (removeObj o cs).map (c :: ·)

namespace CSet

/-- condition.py:660-674 `ConditionSet()`; the attributes of the existing objects do not
change. -/
def empty (st : Store α κ) (owners : OId → Option α) : CSet α κ W :=
  { basic := [], structural := [], order := [], view := [], rebuild := false, store := st,
    owners := owners }

/-- condition.py:948-950: `condition.owner`. -/
def ownerOf (s : CSet α κ W) : AnyCond α κ W → Option α
  | .basic c => s.store.owner c.oid
  | .structural c => s.owners c.o

/-- condition.py:739-740: `conditions_structural[owner]`, made if it is missing. -/
def structsFor (s : CSet α κ W) (owner : α) : List (SCond α) :=
  match Dict.get? s.structural owner with
  | some l => l
  | none => []

/-- condition.py:736-743: a structural condition; `condition.owner = owner` raises
`ConditionError` if the owner is a subject node (2699-2704). -/
def addStructural (s : CSet α κ W) (owner : α) (c : SCond α) : CSet α κ W × Option Err :=
  if owner ∈ c.nodes then (s, some .conditionError)
  else ({ s with
    owners := fun o => if o = c.o then some owner else s.owners o
    structural := Dict.set s.structural owner (s.structsFor owner ++ [c])
    order := s.order ++ [c]
    rebuild := true }, none)

/-- condition.py:736, 744-754: a basic condition.  Simplification: the warnings are not
modelled. -/
def addBasic (s : CSet α κ W) (owner : α) (c : Cond α κ W) : CSet α κ W :=
  { s with
    store := setOwner (some owner) c s.store
    basic := Dict.set s.basic owner c
    rebuild := true }

/-- condition.py:713-754 `add_condition`. -/
def add (s : CSet α κ W) (owner : α) : AnyCond α κ W → CSet α κ W × Option Err
  | .basic c => (s.addBasic owner c, none)
  | .structural c => s.addStructural owner c

/-- condition.py:877-882: the conditions of one owner, in order. -/
def addAll (s : CSet α κ W) (owner : α) : List (AnyCond α κ W) → CSet α κ W × Option Err
  | [] => (s, none)
  | c :: cs => match s.add owner c with
    | (s', some e) => (s', some e)
    | (s', none) => s'.addAll owner cs

/-- condition.py:850-882 `add_condition_set` for a dict of lists (a single condition is a
list with one element).  The argument is not the set itself (for that see `CSet.selfStep`). -/
def addSet (s : CSet α κ W) : Dict α (List (AnyCond α κ W)) → CSet α κ W × Option Err
  | [] => (s, none)
  | (owner, cs) :: rest => match s.addAll owner cs with
    | (s', some e) => (s', some e)
    | (s', none) => s'.addSet rest

/-- condition.py:706-711 `__setitem__`: `remove_condition` is called with two arguments
if the key has structural conditions (there is at least one then). -/
def setItem (s : CSet α κ W) (owner : α) (c : AnyCond α κ W) : CSet α κ W × Option Err :=
  match Dict.get? s.structural owner with
  | some (_ :: _) => (s, some .typeError)
  | _ => s.add owner c

/-- condition.py:777-780 `remove_basic_condition(c)`. -/
def removeBasic (s : CSet α κ W) (owner : α) (c : Cond α κ W) : CSet α κ W :=
  { s with basic := Dict.erase s.basic owner, store := setOwner none c s.store }

/-- condition.py:782-791 `remove_structural_condition(c)`: `none` for `return False`.  If
only the second `remove` fails, the first one has taken place. -/
def removeStructural (s : CSet α κ W) (owner : α) (o : OId) : CSet α κ W × Bool :=
  match Dict.get? s.structural owner with
  | none => (s, false)
  | some l => match removeObj o l with
    | none => (s, false)
    | some l' => match removeObj o s.order with
      | none => ({ s with structural := Dict.set s.structural owner l' }, false)
      | some order' => ({ s with
          structural := if l' = [] then Dict.erase s.structural owner
            else Dict.set s.structural owner l'
          order := order' }, true)

/-- condition.py:756-848 `remove_condition(condition)`.  It returns its argument.  A
basic condition that is not the owner's basic condition is looked for among the structural
conditions (837), where it cannot be. -/
def removeCond (s : CSet α κ W) (c : AnyCond α κ W) :
    CSet α κ W × Except Err (Option (AnyCond α κ W)) :=
  match s.ownerOf c with
  | none => (s, .error .conditionError)
  | some owner =>
    match c with
    | .basic b => match Dict.get? s.basic owner with
      | none => (s, .ok (some c))
      | some b' =>
        if b.oid = b'.oid then ({ s.removeBasic owner b with rebuild := true }, .ok (some c))
        else (s, .ok (some c))
    | .structural d => match s.removeStructural owner d.o with
      | (s', true) => ({ s' with rebuild := true }, .ok (some c))
      | (s', false) => (s', .ok (some c))

/-- condition.py:756-848 `remove_condition(owner)`.  It returns `None`.  After the
removal of the only structural condition, `owner_struct_conds[0]` (836) raises
`IndexError`, because that list is empty now. -/
def removeOwner (s : CSet α κ W) (owner : α) : CSet α κ W × Except Err (Option (AnyCond α κ W)) :=
  match Dict.get? s.basic owner, Dict.get? s.structural owner with
  | some _, some _ => (s, .error .conditionError)
  | some b, none => ({ s.removeBasic owner b with rebuild := true }, .ok none)
  | none, some (_ :: _ :: _) => (s, .error .conditionError)
  | none, some [c] => ((s.removeStructural owner c.o).1, .error .indexError)
  | none, some [] => (s, .ok none)
  | none, none => (s, .ok none)

/-- condition.py:908-919: one node of `conditions_structural` in the rebuilt view. -/
def showStructural (v : Dict α (Shown α κ W)) (node : α) (l : List (SCond α)) :
    Dict α (Shown α κ W) :=
  match Dict.get? v node, l with
  | some (.one b), _ => Dict.set v node (.many (b :: l.map .structural))
  | _, [c] => Dict.set v node (.one (.structural c))
  | _, _ => Dict.set v node (.many (l.map .structural))

/-- condition.py:901-924 the `conditions` property; the view is stored. -/
def conditions (s : CSet α κ W) : CSet α κ W :=
  if s.rebuild then
    let v0 : Dict α (Shown α κ W) := s.basic.map fun p => (p.1, .one (.basic p.2))
    { s with view := s.structural.foldl (fun v p => showStructural v p.1 p.2) v0, rebuild := false }
  else s

/-- condition.py:703-704 `__getitem__` (`none` for `KeyError`) and 686-687
`__contains__`. -/
def getItem (s : CSet α κ W) (n : α) : Option (Shown α κ W) := Dict.get? s.conditions.view n

end CSet

end GS
