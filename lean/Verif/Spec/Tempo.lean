import Verif.Spec.Equiv
/-!
# Specification vocabulary: the same at another speed

Everything that concerns absolute time is multiplied by a number `k`.
-/

set_option linter.unusedSectionVars false

namespace GS.Spec
variable {α κ W : Type _} [DecidableEq α] [DecidableEq κ]

/-- A duration and `k` times that duration, in whatever units they are written. -/
def QtyTempo (k : Rat) (q q' : Qty) : Prop := q'.val = k * q.val

/-- Times that differ in absolute time only, which is `k` times as much in the second one.
The interval counts only while absolute time is in use: a clock that has not been used
says 1 ms. -/
structure TimeTempo (k : Rat) (t t' : Time) : Prop where
  at_ : t'.at_ = t.at_
  enabled : t'.absolute_enabled = t.absolute_enabled
  absolute : t'.absolute = k * t.absolute
  interval : t.absolute_enabled = true → t'.absolute_interval = k * t.absolute_interval

/-- Clocks that differ in absolute time only. -/
structure ClockTempo (k : Rat) (c c' : Clock) : Prop where
  tree : c'.tree = c.tree
  time : TimeTempo k c.time c'.time
  previous : Option.Rel (TimeTempo k) c.previous_time c'.previous_time

/-- Schedulers that look the same, apart from absolute time. -/
structure ViewTempo (k : Rat) (v v' : View α κ W) : Prop where
  nodes : v'.nodes = v.nodes
  mode : v'.mode = v.mode
  graph : v'.graph = v.graph
  queue : v'.queue = v.queue
  countsTotal : v'.countsTotal = v.countsTotal
  countsUseable : v'.countsUseable = v.countsUseable
  execList : v'.execList = v.execList
  world : v'.world = v.world
  timestamps : Pairwise2 (Listwise (TimeTempo k)) v.timestamps v'.timestamps
  clocks : Pairwise2 (ClockTempo k) v.clocks v'.clocks

/-- User functions that give the same results at the two speeds; for example every function
that does not look at absolute time, together with itself. -/
def FuncTempo (k : Rat) (f f' : View α κ W → Option κ → Option α → Except Err Bool) : Prop :=
  ∀ v v' id o, ViewTempo k v v' → f' v' id o = f v id o

/-- Neither a user function nor about absolute time. -/
def Timeless : Leaf α κ W → Prop
  | .func _ => False
  | .timeInterval .. => False
  | .timeTermination .. => False
  | _ => True

/-- Conditions that are the same but for durations, which are multiplied by `k`. -/
inductive LeafTempo (k : Rat) : Leaf α κ W → Leaf α κ W → Prop
  | func {f f' : View α κ W → Option κ → Option α → Except Err Bool} :
      FuncTempo k f f' → LeafTempo k (.func f) (.func f')
  | timeInterval {r r' s s' e e' : Option Qty} (si ei : Bool) : Option.Rel (QtyTempo k) r r' →
      Option.Rel (QtyTempo k) s s' → Option.Rel (QtyTempo k) e e' →
      LeafTempo k (.timeInterval r s e si ei) (.timeInterval r' s' e' si ei)
  | timeTermination {t t' : Qty} (incl : Bool) : QtyTempo k t t' →
      LeafTempo k (.timeTermination t incl) (.timeTermination t' incl)
  | same {l : Leaf α κ W} : Timeless l → LeafTempo k l l

mutual
/-- Conditions that are the same but for durations, which are multiplied by `k`. -/
inductive CondTempo (k : Rat) : Cond α κ W → Cond α κ W → Prop
  | leaf (o : OId) {l l' : Leaf α κ W} : LeafTempo k l l' → CondTempo k (.leaf o l) (.leaf o l')
  | whileNot (o : OId) {f f' : View α κ W → Option κ → Option α → Except Err Bool} :
      FuncTempo k f f' → CondTempo k (.whileNot o f) (.whileNot o f')
  | all (o : OId) {cs cs' : List (Cond α κ W)} : CondsTempo k cs cs' →
      CondTempo k (.all o cs) (.all o cs')
  | any (o : OId) {cs cs' : List (Cond α κ W)} : CondsTempo k cs cs' →
      CondTempo k (.any o cs) (.any o cs')
  | not (o : OId) {c c' : Cond α κ W} : CondTempo k c c' → CondTempo k (.not o c) (.not o c')
  | nwhen (o : OId) {c c' : Cond α κ W} (n : Int) : CondTempo k c c' →
      CondTempo k (.nwhen o c n) (.nwhen o c' n)
/-- The same for lists. -/
inductive CondsTempo (k : Rat) : List (Cond α κ W) → List (Cond α κ W) → Prop
  | nil : CondsTempo k [] []
  | cons {c c' : Cond α κ W} {cs cs' : List (Cond α κ W)} : CondTempo k c c' →
      CondsTempo k cs cs' → CondsTempo k (c :: cs) (c' :: cs')
end

/-- Schedulers that are the same but for absolute time: the time of the clocks, the
durations in conditions and `default_absolute_time_unit` are multiplied by `k`. -/
structure SysTempo (k : Rat) (s s' : Sys α κ W) : Prop where
  view : ViewTempo k s.toView s'.toView
  conds : Pairwise2 (CondTempo k) s.conds s'.conds
  store : s'.store = s.store
  defaultUnit : s'.defaultUnit = k * s.defaultUnit

/-- Calls of `run` that are the same but for durations. -/
structure ArgsTempo (k : Rat) (a a' : RunArgs α κ W) : Prop where
  id : a'.id = a.id
  base : a'.base = a.base
  skip : a'.skip = a.skip
  esu : CondTempo k a.esu a'.esu
  seq : CondTempo k a.seq a'.seq
  others : CondsTempo k a.others a'.others

mutual
/-- A `TimeInterval` with `repeat` is part of the condition. -/
def hasRepeat : Cond α κ W → Bool
  | .leaf _ (.timeInterval (some _) _ _ _ _) => true
  | .leaf _ _ => false
  | .whileNot _ _ => false
  | .all _ cs => anyRepeat cs
  | .any _ cs => anyRepeat cs
  | .not _ c => hasRepeat c
  | .nwhen _ c _ => hasRepeat c
/-- Of one of the conditions. -/
def anyRepeat : List (Cond α κ W) → Bool
  | [] => false
  | c :: cs => hasRepeat c || anyRepeat cs
end

/-- The condition is one of a node or a termination condition that is looked at. -/
def Consulted (s : Sys α κ W) (a : RunArgs α κ W) (c : Cond α κ W) : Prop :=
  c = a.esu ∨ c = a.seq ∨ ∃ n, (n, c) ∈ s.conds

/-- Conditions with a repeated `TimeInterval` are seen to be about absolute time. (A
`TimeInterval` inside `Not` or `NWhen` is not seen, and if there is nothing else the run
does not use absolute time.) -/
def NoneHidden (s : Sys α κ W) (a : RunArgs α κ W) : Prop :=
  ∀ c, Consulted s a c → hasRepeat c = true → c.isAbsolute = true

/-- Entries of a history that are the same but for absolute time. -/
structure EntryTempo (k : Rat) (e e' : Entry α κ W) : Prop where
  ev : e'.ev = e.ev
  before : SysTempo k e.before e'.before
  after : SysTempo k e.after e'.after

end GS.Spec
