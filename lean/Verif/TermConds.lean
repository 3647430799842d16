import Verif.Scheduler
/-!
# Model of the handling of termination conditions (`scheduler.py`)

`β` is the type of `Condition` objects.
-/

set_option linter.unusedSectionVars false

namespace GS

/-- A key of a dict of termination conditions: a `TimeScale` member, a string, or any
other hashable object. -/
inductive TKey where
  | scale (ts : TimeScale)
  | name (s : String)
  | other (n : Nat)
deriving DecidableEq, Repr

/-- A value of such a dict: an instance of `Condition` or anything else (a
`GraphStructureCondition`, for example). -/
inductive TVal (β : Type _) where
  | cond (c : β)
  | notCond (n : Nat)
deriving DecidableEq, Repr

/-- A dict passed as `termination_conds`. -/
abbrev TArg (β : Type _) := Dict TKey (TVal β)

/-- scheduler.py:642 `getattr(TimeScale, scale.upper())`: the five members
(time.py:86-90), `none` for an `AttributeError`.  Simplification: `upper` changes only
ASCII letters. -/
def scaleNamed (s : String) : Option TimeScale :=
  if s.toUpper = "CONSIDERATION_SET_EXECUTION" then some .consideration_set_execution
  else if s.toUpper = "PASS" then some .pass
  else if s.toUpper = "ENVIRONMENT_STATE_UPDATE" then some .environment_state_update
  else if s.toUpper = "ENVIRONMENT_SEQUENCE" then some .environment_sequence
  else if s.toUpper = "LIFE" then some .life
  else none

section
variable {β : Type _}

/-- scheduler.py:641-645: the body of the loop over the dict: the new dict and
`delkeys`.  (`parsed_conds` is the argument itself, scheduler.py:638.) -/
def renameStep (d : TArg β) (del : List TKey) : TKey → TArg β × List TKey
  | .name s => match scaleNamed s, Dict.get? d (.name s) with
    | some ts, some v => (Dict.set d (.scale ts) v, .name s :: del)
    | _, _ => (d, del)
  | .scale _ => (d, del)
  | .other _ => (d, del)

/-- scheduler.py:640-645: the loop.  The dict iterator raises `RuntimeError` when it is
asked for the next key and the number of keys is no longer `n0`. -/
def renameLoop (n0 : Nat) : List TKey → TArg β → List TKey → TArg β × Except Err (List TKey)
  | [], d, del => (d, .ok del)
  | k :: ks, d, del =>
    if (renameStep d del k).1.length = n0 then
      renameLoop n0 ks (renameStep d del k).1 (renameStep d del k).2
    else ((renameStep d del k).1, .error .runtimeError)

/-- scheduler.py:648-656: the entries kept. -/
def keptEntry : TKey × TVal β → Option (TimeScale × β)
  | (.scale ts, .cond c) => some (ts, c)
  | _ => none

/-- scheduler.py:630-666 `_parse_termination_conditions`: the argument afterwards and the
result.  Simplification: the argument is a dict (the `TypeError` of 658-659 is for
arguments that are not). -/
def parseTerm (d : TArg β) : TArg β × Except Err (Dict TimeScale β) :=
  match renameLoop d.length (Dict.keys d) d [] with
  | (d', .error e) => (d', .error e)
  | (d', .ok del) =>
    if d'.all (fun p => (keptEntry p).isSome || decide (p.1 ∈ del)) then
      (d', .ok (d'.filterMap keptEntry))
    else (d', .error .schedulerError)

/-- scheduler.py:342-345 `default_termination_conds`, given its two condition objects. -/
def defaultTerm (never allRun : β) : Dict TimeScale β :=
  [(.environment_sequence, never), (.environment_state_update, allRun)]

/-- A dict of conditions as an argument. -/
def asArg (d : Dict TimeScale β) : TArg β := d.map fun p => (.scale p.1, .cond p.2)

/-- The attributes `default_termination_conds` and `_termination_conds` of a
`Scheduler`. -/
structure TermState (β : Type _) where
  defaults : Dict TimeScale β
  current : Dict TimeScale β

namespace TermState

/-- scheduler.py:482-487: the part of `__init__` for termination conditions.  The dict
passed by the user is not modified: a new one is made (485). -/
def new (never allRun : β) (given : Option (TArg β)) : Except Err (TermState β) :=
  match (parseTerm (match given with
    | none => asArg (defaultTerm never allRun)
    | some d => Dict.update (asArg (defaultTerm never allRun)) d)).2 with
  | .error e => .error e
  | .ok p => .ok { defaults := p, current := p }

/-- scheduler.py:622-627 `_combine_termination_conditions`: the scheduler's attributes
and the argument afterwards, and the result (a copy, 624). -/
def combine (t : TermState β) (d : TArg β) :
    TermState β × TArg β × Except Err (Dict TimeScale β) :=
  match parseTerm d with
  | (d', .error e) => (t, d', .error e)
  | (d', .ok p) => (t, d', .ok (Dict.update t.current p))

/-- scheduler.py:1063-1081, the setter of `termination_conds`. -/
def assign (t : TermState β) : Option (TArg β) → TermState β × Option (TArg β) × Option Err
  | none => ({ t with current := t.defaults }, none, none)
  | some d => match t.combine d with
    | (t', d', .error e) => (t', some d', some e)
    | (t', d', .ok m) => ({ t' with current := m }, some d', none)

/-- scheduler.py:873-876: the termination conditions of a run. -/
def forRun (t : TermState β) : Option (TArg β) →
    TermState β × Option (TArg β) × Except Err (Dict TimeScale β)
  | none => (t, none, .ok t.current)
  | some d => match t.combine d with
    | (t', d', r) => (t', some d', r)

end TermState

/-- How the loop of `run` (scheduler.py:912-924, 989) reads the conditions chosen: the
entries for `ENVIRONMENT_STATE_UPDATE` and `ENVIRONMENT_SEQUENCE` (`KeyError` if
missing); the others are read by `get_absolute_conditions` only (1040). -/
def runArgsOf {α κ W : Type _} (m : Dict TimeScale (Cond α κ W)) (id : Option κ)
    (base : Option (Option κ)) (skip : Bool) : Except Err (RunArgs α κ W) :=
  match Dict.get? m .environment_state_update, Dict.get? m .environment_sequence with
  | some e, some q => .ok
    { id := id, base := base, esu := e, seq := q, skip := skip
      others := (m.filter fun p => p.1 ≠ .environment_state_update ∧
        p.1 ≠ .environment_sequence).map Prod.snd }
  | _, _ => .error .keyError

end

end GS
