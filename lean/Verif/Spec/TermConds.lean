import Verif.TermConds
/-!
# Specification: which termination condition is in force (C45)
-/

set_option linter.unusedSectionVars false

namespace GS.Spec
open GS
variable {β : Type _}

/-- The name of a time scale. -/
def nameOf : TimeScale → String
  | .consideration_set_execution => "CONSIDERATION_SET_EXECUTION"
  | .pass => "PASS"
  | .environment_state_update => "ENVIRONMENT_STATE_UPDATE"
  | .environment_sequence => "ENVIRONMENT_SEQUENCE"
  | .life => "LIFE"

/-- The key stands for the time scale: it is the member, or its name in any case. -/
def KeyNames : TKey → TimeScale → Prop
  | .scale t, ts => t = ts
  | .name s, ts => s.toUpper = nameOf ts
  | .other _, _ => False

/-- The dict says something about the time scale. -/
def Mentions (d : TArg β) (ts : TimeScale) : Prop := ∃ k ∈ Dict.keys d, KeyNames k ts

/-- The dict gives condition `c` for the time scale. -/
def Gives (d : TArg β) (ts : TimeScale) (c : β) : Prop :=
  ∃ k, KeyNames k ts ∧ (k, TVal.cond c) ∈ d

/-- The dict is a Python dict (distinct keys) that mentions no time scale twice. -/
def Unambiguous (d : TArg β) : Prop :=
  Dict.WF d ∧ ∀ k ∈ Dict.keys d, ∀ k' ∈ Dict.keys d, ∀ ts, KeyNames k ts → KeyNames k' ts → k = k'

/-- What an optional dict gives, else what holds without it. -/
def Over (d : Option (TArg β)) (below : TimeScale → β → Prop) (ts : TimeScale) (c : β) : Prop :=
  match d with
  | none => below ts c
  | some d => Gives d ts c ∨ (¬ Mentions d ts ∧ below ts c)

/-- The defaults: never end a sequence, end a state update when all nodes have run. -/
def IsDefault (never allRun : β) (ts : TimeScale) (c : β) : Prop :=
  (ts = .environment_sequence ∧ c = never) ∨ (ts = .environment_state_update ∧ c = allRun)

/-- The conditions of the scheduler after assignments to `termination_conds`, latest
first: assigning `None` restores those of the constructor. -/
def Current (never allRun : β) (ctor : Option (TArg β)) :
    List (Option (TArg β)) → TimeScale → β → Prop
  | [] => Over ctor (IsDefault never allRun)
  | none :: _ => Over ctor (IsDefault never allRun)
  | some d :: ds => Over (some d) (Current never allRun ctor ds)

end GS.Spec
