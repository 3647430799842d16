import Verif.GSC

/-!
# The constructors of the repositioning conditions

Models how `BeforeNodes`, `BeforeNode`, `WithNode`, `AfterNodes` and `AfterNode` read their
arguments (condition.py:2678-2868, 3172-3207, 3270-3429): an operation may be given as a
member of `Operation` or by name, the operations of the subjects also as a dict.  A dict is
an object that several conditions may share and that the constructors write to.
-/

set_option linter.unusedSectionVars false

namespace GS

variable {α : Type _} [DecidableEq α]

/-- The text of an operation's name. -/
abbrev Word := List Char

/-- condition.py:2818-2820 `Union[Operation, str]`.  Simplification: values of other types
are not represented. -/
inductive Arg where
  | op (o : Oper)
  | name (w : Word)
deriving DecidableEq, Repr

/-- Identity of a dict object. -/
abbrev DictId := Nat

/-- The contents of all dicts of operations. -/
abbrev Dicts (α : Type _) := DictId → Dict α Arg

/-- condition.py:2820-2821 `typing_subject_operation`: one operation for all subjects, or a
dict. -/
inductive Subj where
  | one (a : Arg)
  | dict (d : DictId)
deriving DecidableEq, Repr

/-- condition.py:583-591: `Operation.__members__`. -/
def operMembers : List (Word × Oper) :=
  [("KEEP".toList, .keep), ("REPLACE".toList, .replace), ("DISCARD".toList, .discard),
   ("INTERSECTION".toList, .intersection), ("UNION".toList, .union), ("MERGE".toList, .merge),
   ("DIFFERENCE".toList, .difference), ("INVERSE_DIFFERENCE".toList, .inverseDifference),
   ("SYMMETRIC_DIFFERENCE".toList, .symmetricDifference)]

/-- condition.py:3172-3177 `_parse_operation_arg`: what is not a name of a member is
returned as it is.  Simplification: `str.upper` only for ASCII. -/
def parseArg : Arg → Arg
  | .op o => .op o
  | .name w =>
    match operMembers.find? fun p => p.1 = w.map Char.toUpper with
    | some p => .op p.2
    | none => .name w

/-- condition.py:3190-3197: the loop over the items of a dict of operations; `false` when a
key is not among the nodes. -/
def parseItems (nodes : List α) : List (α × Arg) → Dict α Arg → Dict α Arg × Bool
  | [], d => (d, true)
  | (n, v) :: rest, d =>
    if n ∉ nodes then (d, false) else parseItems nodes rest (Dict.set d n (parseArg v))

/-- Replace the contents of one dict. -/
def Dicts.put (H : Dicts α) (d : DictId) (v : Dict α Arg) : Dicts α :=
  fun i => if i = d then v else H i

/-- condition.py:3179-3207 `_handle_subject_arg`.  The dict is changed in place, also when
the call fails. -/
def handleSubject (nodes : List α) (H : Dicts α) : Subj → Dicts α × Except Err Subj
  | .one a => (H, .ok (.one (parseArg a)))
  | .dict d =>
    let r := parseItems nodes (H d) (H d)
    let H' := H.put d r.1
    if r.2 = false then (H', .error .conditionError)
    -- 3199-3205: `subject.keys() - set(nodes)`
    else if (Dict.keys (H' d)).filter (fun n => n ∉ nodes) ≠ [] then (H', .error .conditionError)
    else (H', .ok (.dict d))

/-- The public classes (condition.py:3270-3429). -/
inductive Cls where
  | beforeNodes | beforeNode | withNode | afterNodes | afterNode
deriving DecidableEq, Repr

/-- Which family a class belongs to. -/
def Cls.kind : Cls → Kind
  | .beforeNodes | .beforeNode => .before
  | .withNode => .withNode
  | .afterNodes | .afterNode => .after

/-- condition.py:3317, 3327, 3422: the subclasses of `_GSCSingleNode`. -/
def Cls.single : Cls → Bool
  | .beforeNode | .withNode | .afterNode => true
  | .beforeNodes | .afterNodes => false

/-- The keyword arguments of a call; `none` when not given. -/
structure Opts where
  ownerSenders : Option Arg := none
  ownerReceivers : Option Arg := none
  subjectSenders : Option Subj := none
  subjectReceivers : Option Subj := none
  reconnect : Bool := true
  removeSelf : Bool := true
  prune : Bool := true
  ignoreConflicts : Bool := false

/-- condition.py:3281, 3347, 3389: the default of `owner_senders`; `WithNode` has no such
parameter and passes `MERGE`. -/
def Cls.ownerSenders : Cls → Oper
  | .beforeNodes | .beforeNode | .withNode => .merge
  | .afterNodes | .afterNode => .keep

/-- condition.py:3282, 3338, 3390: the default of `owner_receivers`. -/
def Cls.ownerReceivers : Cls → Oper
  | .beforeNodes | .beforeNode | .withNode => .keep
  | .afterNodes | .afterNode => .merge

/-- condition.py:3283, 3349, 3391: the default of `subject_senders`; `WithNode` has no such
parameter and passes `MERGE`. -/
def Cls.subjectSenders : Cls → Oper
  | .beforeNodes | .beforeNode => .keep
  | .withNode | .afterNodes | .afterNode => .merge

/-- condition.py:3284, 3339, 3392: the default of `subject_receivers`. -/
def Cls.subjectReceivers : Cls → Oper := fun _ => .keep

/-- The attributes of a condition as the constructor leaves them. -/
structure RawCond (α : Type _) where
  kind : Kind
  nodes : List α
  ownerSenders : Arg
  ownerReceivers : Arg
  subjectSenders : Subj
  subjectReceivers : Subj
  reconnect : Bool
  removeSelf : Bool
  prune : Bool
  ignoreConflicts : Bool

/-- condition.py:2705-2719, 2737-2743 `_validate_nodes`; whether it passes.
Simplification: nodes are hashable. -/
def Cls.nodesOk (cls : Cls) (nodes : List α) : Bool :=
  if cls.single then decide (nodes.length = 1) && decide (¬ nodes.length < 1)
  else decide (¬ nodes.length < 1)

/-- A call of a constructor (condition.py:2683-2685, 2818-2852, 3278-3300, 3336-3357,
3386-3406).  Passing `WithNode` an option it does not have is a `TypeError`.
Simplification: `WithNode` takes its other parameters positionally too, so a second
positional argument would be read as `owner_receivers`; here they are given by keyword. -/
def construct (cls : Cls) (nodes : List α) (o : Opts) (H : Dicts α) :
    Dicts α × Except Err (RawCond α) :=
  if cls = .withNode ∧ (nodes.length ≠ 1 ∨ o.ownerSenders ≠ none ∨ o.subjectSenders ≠ none) then
    (H, .error .typeError)
  else
    let os := parseArg (o.ownerSenders.getD (.op cls.ownerSenders))
    let or := parseArg (o.ownerReceivers.getD (.op cls.ownerReceivers))
    let r1 := handleSubject nodes H (o.subjectSenders.getD (.one (.op cls.subjectSenders)))
    match r1.2 with
    | .error e => (r1.1, .error e)
    | .ok ss =>
      let r2 := handleSubject nodes r1.1 (o.subjectReceivers.getD (.one (.op cls.subjectReceivers)))
      match r2.2 with
      | .error e => (r2.1, .error e)
      | .ok sr =>
        if cls.nodesOk nodes = false then (r2.1, .error .conditionError)
        else (r2.1, .ok
          { kind := cls.kind, nodes := nodes, ownerSenders := os, ownerReceivers := or
            subjectSenders := ss, subjectReceivers := sr, reconnect := o.reconnect
            removeSelf := o.removeSelf, prune := o.prune, ignoreConflicts := o.ignoreConflicts })

/-- condition.py:2854-2868 `_get_subject_operation`.  Simplification: nodes are not
integers (a string is indexed by an integer). -/
def getSubject (H : Dicts α) (s : Subj) (n : α) : Except Err Arg :=
  match s with
  | .one a => .ok a
  | .dict d =>
    match Dict.get? (H d) n with
    | some a => .ok a
    | none => .error .conditionError

/-- condition.py:3107, 3112, 3121, 3126: what is called must be an operation; a string is
not callable. -/
def callable : Arg → Except Err Oper
  | .op o => .ok o
  | .name _ => .error .typeError

/-- condition.py:3116-3129: the operations of one subject, in the order in which the code
looks them up and calls them. -/
def subjectOps (H : Dicts α) (ss sr : Subj) (n : α) : Except Err (Oper × Oper) :=
  match getSubject H ss n, getSubject H sr n with
  | .error e, _ => .error e
  | .ok _, .error e => .error e
  | .ok a, .ok b =>
    match callable a, callable b with
    | .error e, _ => .error e
    | .ok _, .error e => .error e
    | .ok p, .ok q => .ok (p, q)

/-- condition.py:3116-3129: the first failure among the subjects. -/
def firstFailure (H : Dicts α) (ss sr : Subj) : List α → Option Err
  | [] => none
  | n :: ns =>
    match subjectOps H ss sr n with
    | .error e => some e
    | .ok _ => firstFailure H ss sr ns

namespace RawCond

/-- The condition with given operations. -/
def withOps (c : RawCond α) (o1 o2 : Oper) (f g : α → Oper) : OpCond α :=
  { kind := c.kind, nodes := c.nodes, ownerSenders := o1, ownerReceivers := o2
    subjectSenders := f, subjectReceivers := g, reconnect := c.reconnect
    removeSelf := c.removeSelf, prune := c.prune, ignoreConflicts := c.ignoreConflicts }

/-- condition.py:3106-3129: the operations that are called, or the first failure. -/
def resolve (c : RawCond α) (H : Dicts α) : Except Err (OpCond α) :=
  match callable c.ownerSenders with
  | .error e => .error e
  | .ok o1 =>
    match callable c.ownerReceivers with
    | .error e => .error e
    | .ok o2 =>
      match firstFailure H c.subjectSenders c.subjectReceivers c.nodes with
      | some e => .error e
      | none =>
        let ops := fun n => match subjectOps H c.subjectSenders c.subjectReceivers n with
          | .ok r => r
          | .error _ => (.keep, .keep)
        .ok (c.withOps o1 o2 (fun n => (ops n).1) (fun n => (ops n).2))

/-- condition.py:2721-2729 `_validate_graph`. -/
def inGraph (c : RawCond α) (owner : α) (s : HG α) : Bool :=
  (owner :: c.nodes).all fun n => n ∈ Dict.keys s.graph

/-- condition.py:3263-3265: whether all subjects are already valid (`OpCond.valid` does not
look at the operations). -/
def allValid (c : RawCond α) (owner : α) (s : HG α) : Bool :=
  decide ((c.nodes.filter ((c.withOps .keep .keep (fun _ => .keep) (fun _ => .keep)).valid owner
    s.clone)).length = c.nodes.length)

/-- condition.py:2608-2641, 3262-3267 `modify_graph`, once the condition has an owner; the
dicts are read when it is called.  What comes before the operations are called
(`_preprocess`) changes only a copy and cannot fail. -/
def modifyGraph (cyc : Graph α → List (List α)) (H : Dicts α) (c : RawCond α) (owner : α)
    (s : HG α) : Except Err (HG α) :=
  if c.inGraph owner s = false then .error .conditionError
  else if c.allValid owner s then .ok s.clone
  else match c.resolve H with
    | .error e => .error e
    | .ok oc => oc.transform cyc owner s.clone

end RawCond

/-- A call of a constructor, as part of a history. -/
structure NewCond (α : Type _) where
  cls : Cls
  nodes : List α
  opts : Opts

/-- The dicts after a list of constructor calls, failed ones included. -/
def construction (H : Dicts α) (calls : List (NewCond α)) : Dicts α :=
  calls.foldl (fun H c => (construct c.cls c.nodes c.opts H).1) H

end GS
