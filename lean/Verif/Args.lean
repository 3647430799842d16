import Verif.Basic
/-!
# Model of argument pruning (`utilities.py:30-104`, `condition.py:959-1015`)

`V` is the type of Python objects passed as arguments.
-/

set_option linter.unusedSectionVars false

namespace GS

/-- `inspect.Parameter.kind`. -/
inductive PKind where
  | positionalOnly | positionalOrKeyword | varPositional | keywordOnly | varKeyword
deriving DecidableEq, Repr

/-- `inspect.Parameter`: name, kind and whether it has a default. -/
structure Param where
  name : String
  kind : PKind
  dflt : Bool
deriving DecidableEq, Repr

/-- `inspect.signature(func).parameters`, in order.  Simplification: the cache of
signatures (utilities.py:48-52) is left out; the signature of a function does not
change. -/
abbrev Sig := List Param

/-- Local variables of the loop of utilities.py:54-69. -/
structure PruneVars where
  hasArgs : Bool := false
  hasKwargs : Bool := false
  countPositional : Nat := 0
  names : List String := []

/-- utilities.py:59-69: the body of the loop over the parameters. -/
def pruneParam (v : PruneVars) (p : Param) : PruneVars :=
  match p.kind with
  | .varPositional => { v with hasArgs := true }
  | .varKeyword => { v with hasKwargs := true }
  | .positionalOrKeyword =>
    { v with
      countPositional := if p.dflt then v.countPositional else v.countPositional + 1
      names := p.name :: v.names }
  | .keywordOnly =>
    { v with
      countPositional := if p.dflt then v.countPositional else v.countPositional + 1
      names := p.name :: v.names }
  | .positionalOnly => v

section
variable {V : Type _}

/-- utilities.py:30-94 `prune_unused_args`, for a list and a dict. -/
def pruneUnusedArgs (sig : Sig) (args : List V) (kwargs : Dict String V) :
    List V × Dict String V :=
  let v := sig.foldl pruneParam {}
  (if v.hasArgs then args else args.take v.countPositional,
   if v.hasKwargs then kwargs else kwargs.filter fun p => decide (p.1 ∈ v.names))

/-- A call `f(*args, **kwargs)`: the arguments with which a function is called. -/
structure Call (V : Type _) where
  args : List V
  kwargs : Dict String V
deriving DecidableEq

/-- utilities.py:97-104 `call_with_pruned_args(func, *args, **kwargs)`: the call of `func`
that is made.  A keyword `func` collides with the parameter (`TypeError`). -/
def callPruned (sig : Sig) (args : List V) (kwargs : Dict String V) : Except Err (Call V) :=
  if "func" ∈ Dict.keys kwargs then .error .typeError
  else
    let r := pruneUnusedArgs sig args kwargs
    .ok { args := r.1, kwargs := r.2 }

/-- `f(..., execution_id=e, **kw)`: passing a keyword twice is a `TypeError`. -/
def withExecutionId (e : V) (kw : Dict String V) : Except Err (Dict String V) :=
  if "execution_id" ∈ Dict.keys kw then .error .typeError
  else .ok (("execution_id", e) :: kw)

/-- condition.py:986-1015 `Condition(func, *cargs, **ckw).is_satisfied(*eargs,
execution_id=e, **ekw)`: the call of `func` that is made.  Simplification: none of the
keywords is the name of an attribute of the object (condition.py:939-943 stores them as
attributes, so that `args=...` would replace the positional arguments; this is modelled in
`Verif/CondAttrs.lean`). -/
def conditionCall (sig : Sig) (cargs : List V) (ckw : Dict String V) (eargs : List V) (e : V)
    (ekw : Dict String V) : Except Err (Call V) :=
  match withExecutionId e (Dict.update ckw ekw) with
  | .error x => .error x
  | .ok kw => callPruned sig (cargs ++ eargs) kw

/-- condition.py:1096-1099: the signature of the function wrapped around that of
`WhileNot`. -/
def wrapperSig : Sig := [⟨"args", .varPositional, false⟩, ⟨"kwargs", .varKeyword, false⟩]

/-- condition.py:1096-1099 `WhileNot(func, ...)`: pruned twice. -/
def whileNotCall (sig : Sig) (cargs : List V) (ckw : Dict String V) (eargs : List V) (e : V)
    (ekw : Dict String V) : Except Err (Call V) :=
  match conditionCall wrapperSig cargs ckw eargs e ekw with
  | .error x => .error x
  | .ok c => callPruned sig c.args c.kwargs

end

/-! ## Python's rules for calls (language semantics, not code of this project) -/

/-- Parameters that take positional arguments. -/
def Sig.positional (sig : Sig) : List Param :=
  sig.filter fun p => p.kind = .positionalOnly ∨ p.kind = .positionalOrKeyword

/-- The parameter may be given by keyword. -/
def Param.byKeyword (p : Param) : Bool :=
  p.kind = .positionalOrKeyword ∨ p.kind = .keywordOnly

def Sig.hasVarPositional (sig : Sig) : Bool := sig.any fun p => p.kind = .varPositional
def Sig.hasVarKeyword (sig : Sig) : Bool := sig.any fun p => p.kind = .varKeyword

/-- Python accepts the call: not too many positional arguments, every keyword names a
parameter that is not already filled or goes to `**kwargs`, and every parameter without
default is filled. -/
def Sig.Accepts {V : Type _} (sig : Sig) (c : Call V) : Prop :=
  (sig.hasVarPositional = true ∨ c.args.length ≤ sig.positional.length) ∧
  (∀ n ∈ Dict.keys c.kwargs,
    (∃ p ∈ sig, p.name = n ∧ p.byKeyword = true ∧ p ∉ sig.positional.take c.args.length) ∨
    ((∀ p ∈ sig, p.name = n → p.byKeyword = false) ∧ sig.hasVarKeyword = true)) ∧
  ∀ p ∈ sig, p.dflt = false → p.kind ≠ .varPositional → p.kind ≠ .varKeyword →
    p ∈ sig.positional.take c.args.length ∨ (p.byKeyword = true ∧ p.name ∈ Dict.keys c.kwargs)

end GS
