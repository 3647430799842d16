import Verif.Custom
/-!
# What the documentation says about functions for `CustomGraphStructureCondition`

"a function taking an optional 'self' argument (as the first argument, if present), and a
graph dependency dictionary".
-/

namespace GS.Spec
variable {α A : Type _} [DecidableEq α]

/-- A parameter that can be filled by position. -/
def Param.ByPosition (p : Param) : Prop := p.kind = .positionalOnly ∨ p.kind = .positionalOrKeyword

/-- A parameter that need not be filled. -/
def Param.Optional (p : Param) : Prop :=
  p.dflt = true ∨ p.kind = .varPositional ∨ p.kind = .varKeyword

/-- `def f(graph, ...)`: a parameter for the graph, then only optional ones. -/
def TakesGraph (sig : Sig) : Prop :=
  ∃ p rest, sig = p :: rest ∧ Param.ByPosition p ∧ (∀ q ∈ rest, Param.Optional q) ∧
    ∀ q ∈ sig, q.name ≠ "self"

/-- `def f(self, graph, ...)`. -/
def TakesSelfAndGraph (sig : Sig) : Prop :=
  ∃ p q rest, sig = p :: q :: rest ∧ p.name = "self" ∧ Param.ByPosition p ∧ Param.ByPosition q ∧
    ∀ r ∈ rest, Param.Optional r

/-- `t` is a copy of the graph `s` made of new set objects. -/
structure FreshCopy (s t : HG α) : Prop where
  value : t.value = s.value
  fresh : ∀ n a, Dict.get? t.graph n = some a → s.heap.length ≤ a ∧ a < t.heap.length
  own : ∀ n m a, Dict.get? t.graph n = some a → Dict.get? t.graph m = some a → n = m
  kept : ∀ a, a < s.heap.length → t.heap.read a = s.heap.read a

/-- The function changes only the sets of the graph that it is given. -/
def ChangesOnlyItsGraph (f : UserFn α A) : Prop :=
  ∀ self g t, f.body self g = .ok t → ∀ a, (∀ n, Dict.get? g.graph n ≠ some a) →
    a < g.heap.length → t.heap.read a = g.heap.read a

end GS.Spec
