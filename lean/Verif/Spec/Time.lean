import Verif.Time
/-!
# Specification vocabulary for clocks

A clock's history is the list of time scales that have been incremented, oldest first.
Nothing here refers to the history tree or to the current time of the model.
-/

namespace GS.Spec

/-- Value of the unit `s` after the history `log`: the number of `s`-increments since
the last increment of a coarser unit. -/
def field (log : List TimeScale) (s : TimeScale) : Nat :=
  (log.reverse.takeWhile (fun e => decide (e.val ≤ s.val))).count s

/-- Number of `q`-increments in `log` that happened when the history so far
satisfied `P`. -/
def countWhen (P : List TimeScale → Bool) (q : TimeScale) (log : List TimeScale) : Nat :=
  ((List.range log.length).filter
    (fun p => decide (log[p]? = some q) && P (log.take p))).length

/-- The history `pre` ends inside the period named by `idx`: every unit at least as
coarse as `base` (below `LIFE`) has the value given by `idx`. -/
def inPeriod (base : TimeScale) (idx : TimeScale → Nat) (pre : List TimeScale) : Bool :=
  TimeScale.all.all fun s =>
    !(decide (base.val ≤ s.val) && decide (s ≠ TimeScale.life)) || decide (field pre s = idx s)

/-- The history `pre` ends inside the enclosing period of unit `s` (units strictly
coarser than `s` agree with `idx`). -/
def inEnclosing (s : TimeScale) (idx : TimeScale → Nat) (pre : List TimeScale) : Bool :=
  TimeScale.all.all fun s' =>
    !(decide (s.val < s'.val) && decide (s' ≠ TimeScale.life)) || decide (field pre s' = idx s')

/-- Python-style choice of a period among `0 .. latest`: no index means the latest, a
negative index counts from the end. -/
def Chooses (given : Option Int) (latest n : Nat) : Prop :=
  match given with
  | none => n = latest
  | some i => n ≤ latest ∧ ((n : Int) = i ∨ (n : Int) = i + latest + 1)

/-- `idx` names one recorded period for every unit from `base` up: units down to
`maxDepth` are recorded, a given index picks that period of the enclosing one, and a
missing index picks the latest. -/
def Resolved (maxDepth base : TimeScale) (given : TimeScale → Option Int)
    (log : List TimeScale) (idx : TimeScale → Nat) : Prop :=
  ∀ s, base.val ≤ s.val → s ≠ TimeScale.life →
    maxDepth.val ≤ s.val ∧ Chooses (given s) (countWhen (inEnclosing s idx) s log) (idx s)

/-- `base` is the finest unit coarser than `q` for which an index is given, or `LIFE`. -/
def IsBase (q : TimeScale) (given : TimeScale → Option Int) (base : TimeScale) : Prop :=
  (base = TimeScale.life ∨ ((given base).isSome ∧ q.val < base.val)) ∧
    ∀ s, (given s).isSome → q.val < s.val → base.val ≤ s.val

/-- Histories never contain `LIFE` (it cannot be incremented). -/
def NoLife (log : List TimeScale) : Prop := ∀ e ∈ log, e ≠ TimeScale.life

instance (log : List TimeScale) : Decidable (NoLife log) :=
  inferInstanceAs (Decidable (∀ e ∈ log, e ≠ TimeScale.life))

/-- Apart from absolute time, the clock `c` is a new clock after the increments `log`. -/
def Shows (c : Clock) (log : List TimeScale) : Prop :=
  NoLife log ∧ ∃ c0, log.foldlM Clock.incr Clock.new = .ok c0 ∧ c.tree = c0.tree ∧
    ∀ s, c.time.at_ s = c0.time.at_ s

/-- Lexicographic order on times, coarsest unit first. -/
def Earlier (f g : TimeScale → Nat) : Prop :=
  ∃ s, f s < g s ∧ ∀ s', s.val < s'.val → f s' = g s'

end GS.Spec
