import Verif.Spec.Order
import Verif.Spec.Share
/-!
# Specification vocabulary: conditions that can replace each other
-/

set_option linter.unusedSectionVars false

namespace GS.Spec
variable {α κ W : Type _} [DecidableEq α] [DecidableEq κ]

/-- The condition objects of `st0` still have the same owners in `st`, where there may be
more objects. -/
def OwnersKept (st0 st : Store α κ) : Prop :=
  st0.fresh ≤ st.fresh ∧ ∀ o, o < st0.fresh → st.owner o = st0.owner o

/-- Two lists contain the same durations (whatever the units and the order). -/
def SameDurations (l l' : List Qty) : Prop := ∀ x : Rat, x ∈ l'.map Qty.val ↔ x ∈ l.map Qty.val

/-- `c` and `c'` can replace each other, `c` where the condition objects are those of
`st0`, and `c'` where they are those of `st0'`: they always give the same result (or raise
the same exception) with the same effect on the counters of `NWhen`, and ask for the same
intervals and points of absolute time. -/
structure Interchangeable (st0 st0' : Store α κ) (c c' : Cond α κ W) : Prop where
  same : ∀ v id st st', OwnersKept st0 st → OwnersKept st0' st' → st'.sat = st.sat →
    (eval v id c' st').1 = (eval v id c st).1 ∧ (eval v id c' st').2.sat = (eval v id c st).2.sat
  absolute : c'.isAbsolute = c.isAbsolute
  intervals : c.isAbsolute = true → SameDurations c.intervals c'.intervals
  points : c.isAbsolute = true → SameDurations c.fixedPoints c'.fixedPoints

/-- Two dicts have the same keys in the same order, with related values. -/
inductive Pairwise2 {β : Type _} (R : β → β → Prop) : Dict α β → Dict α β → Prop
  | nil : Pairwise2 R [] []
  | cons {n : α} {c c' : β} {d d' : Dict α β} :
      R c c' → Pairwise2 R d d' → Pairwise2 R ((n, c) :: d) ((n, c') :: d')

/-- Two lists have the same length and related elements. -/
inductive Listwise {β : Type _} (R : β → β → Prop) : List β → List β → Prop
  | nil : Listwise R [] []
  | cons {c c' : β} {l l' : List β} : R c c' → Listwise R l l' → Listwise R (c :: l) (c' :: l')

/-- Two schedulers and two calls of `run` that differ in nothing but the conditions of
nodes and the termination conditions, which can replace each other. -/
structure Rewritten (s s' : Sys α κ W) (a a' : RunArgs α κ W) : Prop where
  view : s'.toView = s.toView
  defaultUnit : s'.defaultUnit = s.defaultUnit
  fresh : s'.store.fresh = s.store.fresh
  sat : s'.store.sat = s.store.sat
  conds : Pairwise2 (Interchangeable s.store s'.store) s.conds s'.conds
  id : a'.id = a.id
  base : a'.base = a.base
  skip : a'.skip = a.skip
  esu : Interchangeable s.store s'.store a.esu a'.esu
  seq : Interchangeable s.store s'.store a.seq a'.seq
  others : Listwise (Interchangeable s.store s'.store) a.others a'.others

/-- A run with a consumer that behaves as `w` says can come to a state in which the events
`evs` have happened, everything that can be seen of the scheduler is `v`, and the run
is at `pc`. -/
def Observable (w : List (List α) → World α κ W) (a : RunArgs α κ W) (s0 : Sys α κ W) (abs : Bool)
    (evs : List (Event α)) (v : View α κ W) (pc : PC α) : Prop :=
  ∃ h s, Scripted w a s0 abs h s pc ∧ h.map Entry.ev = evs ∧ s.toView = v

/-- All objects of the condition exist in both stores, and have the same owners. -/
def Shared (b b' : Store α κ) (c : Cond α κ W) : Prop :=
  ∀ o, Occurs o c → o < b.fresh ∧ o < b'.fresh ∧ b'.owner o = b.owner o

/-- The condition never raises an exception and does not count (`NWhen`). -/
def Pure (c : Cond α κ W) : Prop :=
  ∀ v id st, (∃ r, (eval v id c st).1 = .ok r) ∧ (eval v id c st).2.sat = st.sat

/-- Two optional durations are equal (their units may differ). -/
def SameDuration (x y : Option Qty) : Prop := y.map Qty.val = x.map Qty.val

end GS.Spec
