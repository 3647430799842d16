import Verif.GSCArgs

/-!
# Specification of the options of structural conditions

What the documentation of `Operation` and of `BeforeNodes`, `WithNode` and `AfterNodes` says
about their arguments.  No parsing, no order of evaluation, nothing about how it is stored.
-/

namespace GS.Spec

variable {α : Type _} [DecidableEq α]

/-- The documented names of the operations, in lower case. -/
def operName : Oper → String
  | .keep => "keep"
  | .replace => "replace"
  | .discard => "discard"
  | .intersection => "intersection"
  | .union => "union"
  | .merge => "merge"
  | .difference => "difference"
  | .inverseDifference => "inverse_difference"
  | .symmetricDifference => "symmetric_difference"

/-- An option stands for an operation: it is that operation, or its name in any mixture of
upper and lower case. -/
def Denotes (a : Arg) (o : Oper) : Prop :=
  match a with
  | .op o' => o' = o
  | .name w => w.map Char.toLower = (operName o).toList

/-- An option for the subjects gives subject `n` an operation: one for all, or a dict with an
entry for `n`. -/
def GivesOper (H : Dicts α) (s : Subj) (n : α) (o : Oper) : Prop :=
  match s with
  | .one a => Denotes a o
  | .dict d => ∃ a, Dict.get? (H d) n = some a ∧ Denotes a o

/-- The operations that apply when an option is not given (the signatures of the classes):
owner's senders and receivers, subjects' senders and receivers. -/
def defaults : Kind → Oper × Oper × Oper × Oper
  | .before => (.merge, .keep, .keep, .keep)
  | .withNode => (.merge, .keep, .merge, .keep)
  | .after => (.keep, .merge, .merge, .keep)

/-- An option of the owner means an operation. -/
def OwnerMeans (a : Option Arg) (dflt o : Oper) : Prop :=
  match a with
  | some a => Denotes a o
  | none => o = dflt

/-- An option of the subjects means an operation for subject `n`. -/
def SubjectMeans (H : Dicts α) (s : Option Subj) (dflt : Oper) (n : α) (o : Oper) : Prop :=
  match s with
  | some s => GivesOper H s n o
  | none => o = dflt

/-- The options of a call mean four operations, the last two for each subject. -/
structure Means (H : Dicts α) (k : Kind) (nodes : List α) (o : Opts) (o1 o2 : Oper)
    (f g : α → Oper) : Prop where
  ownerSenders : OwnerMeans o.ownerSenders (defaults k).1 o1
  ownerReceivers : OwnerMeans o.ownerReceivers (defaults k).2.1 o2
  subjectSenders : ∀ n ∈ nodes, SubjectMeans H o.subjectSenders (defaults k).2.2.1 n (f n)
  subjectReceivers : ∀ n ∈ nodes, SubjectMeans H o.subjectReceivers (defaults k).2.2.2 n (g n)

/-- A dict given as an option names only subjects. -/
def OnlySubjects (H : Dicts α) (nodes : List α) (s : Option Subj) : Prop :=
  ∀ d, s = some (.dict d) → ∀ n ∈ Dict.keys (H d), n ∈ nodes

/-- The number of subjects a class takes. -/
def RightNumber (cls : Cls) (nodes : List α) : Prop :=
  match cls with
  | .beforeNodes | .afterNodes => nodes ≠ []
  | .beforeNode | .withNode | .afterNode => nodes.length = 1

/-- The options a class has: `WithNode` always merges senders. -/
def HasOptions (cls : Cls) (o : Opts) : Prop :=
  cls = .withNode → o.ownerSenders = none ∧ o.subjectSenders = none

/-- The family of a class. -/
def family : Cls → Kind
  | .beforeNodes | .beforeNode => .before
  | .withNode => .withNode
  | .afterNodes | .afterNode => .after

/-- The condition with the operations spelled out. -/
def intended (cls : Cls) (nodes : List α) (o : Opts) (o1 o2 : Oper) (f g : α → Oper) : OpCond α :=
  { kind := family cls, nodes := nodes, ownerSenders := o1, ownerReceivers := o2
    subjectSenders := f, subjectReceivers := g, reconnect := o.reconnect
    removeSelf := o.removeSelf, prune := o.prune, ignoreConflicts := o.ignoreConflicts }

end GS.Spec
