import Verif.Args
/-!
# Model of `Condition` objects with their attributes (`condition.py:927-1036`)

A `Condition` stores its keyword arguments twice: in `self.kwargs`, and each as an attribute
(`setattr`).  An attribute can replace what the object itself uses.
-/

set_option linter.unusedSectionVars false

namespace GS
variable {V : Type _}

/-- What Python does with objects as far as it matters here (language semantics): what `*v`
unpacks to, which `dict` an object is, and the outcome of the call `f(v)`.
Simplification: objects other than dicts that have methods `copy` and `update` are not
considered. -/
structure PyVals (V : Type _) where
  unpack : V → Option (List V)
  asDict : V → Option (Dict String V)
  call : V → V → Except Err Unit

/-- A `Condition` object: `self.args` and `self.kwargs` (`.inl`: as stored by the constructor,
`.inr`: replaced by `setattr`), `self._owner` and the other attributes of the instance. -/
structure CondObj (V : Type _) where
  args : List V ⊕ V
  kwargs : Dict String V ⊕ V
  owner : Option V
  own : Dict String V

namespace CondObj

/-- condition.py:952-956, the setter of `owner`; an attribute `_validate_owner` of the instance
hides the method (condition.py:945-946, which accepts everything). -/
def setOwner (py : PyVals V) (o : CondObj V) (v : V) : Except Err (CondObj V) :=
  match Dict.get? o.own "_validate_owner" with
  | none => .ok { o with owner := some v }
  | some f => match py.call f v with
    | .error e => .error e
    | .ok _ => .ok { o with owner := some v }

/-- condition.py:943 `setattr(self, k, v)` for an instance of `Condition`: `owner` is a property
with a setter (948-956); `absolute_intervals`, `absolute_fixed_points` and `is_absolute` are
properties without (1017-1035), so Python raises `AttributeError`.  Simplification: names that
begin with two underscores are not considered. -/
def setAttr (py : PyVals V) (o : CondObj V) (k : String) (v : V) : Except Err (CondObj V) :=
  if k = "args" then .ok { o with args := .inr v }
  else if k = "kwargs" then .ok { o with kwargs := .inr v }
  else if k = "owner" then o.setOwner py v
  else if k = "absolute_intervals" ∨ k = "absolute_fixed_points" ∨ k = "is_absolute" then
    .error .attributeError
  else .ok { o with own := Dict.set o.own k v }

/-- condition.py:942-943, the loop over the keyword arguments. -/
def setAttrs (py : PyVals V) : Dict String V → CondObj V → Except Err (CondObj V)
  | [], o => .ok o
  | (k, v) :: l, o => match o.setAttr py k v with
    | .error e => .error e
    | .ok o' => setAttrs py l o'

/-- condition.py:974-977 and 939-943 `Condition(func, *cargs, **kw)`: keywords `self` and `func`
collide with parameters; `_owner` is a parameter of the base class. -/
def create (py : PyVals V) (cargs : List V) (kw : Dict String V) : Except Err (CondObj V) :=
  if "self" ∈ Dict.keys kw ∨ "func" ∈ Dict.keys kw then .error .typeError
  else
    let rest := kw.filter fun p => decide (p.1 ≠ "_owner")
    setAttrs py rest ⟨.inl cargs, .inl rest, Dict.get? kw "_owner", []⟩

/-- What evaluating a condition does: its function is called, or an object that replaces the
method `is_satisfied`. -/
inductive Evaluation (V : Type _) where
  | calls (c : Call V)
  | replaced (v : V)

/-- condition.py:986-1015 `is_satisfied(*eargs, execution_id=e, **ekw)`, where `sig` is the
signature of the function.  A value of `self.kwargs` that is not a dict has no method `copy`
(`AttributeError`); a value of `self.args` that cannot be unpacked raises `TypeError`. -/
def evaluate (py : PyVals V) (o : CondObj V) (sig : Sig) (eargs : List V) (e : V)
    (ekw : Dict String V) : Except Err (Evaluation V) :=
  match Dict.get? o.own "is_satisfied" with
  | some v => .ok (.replaced v)
  | none =>
    match o.kwargs.elim some py.asDict with
    | none => .error .attributeError
    | some ckw => match o.args.elim some py.unpack with
      | none => .error .typeError
      | some cargs => match conditionCall sig cargs ckw eargs e ekw with
        | .error x => .error x
        | .ok c => .ok (.calls c)

end CondObj
end GS
