import Verif.Spec.Run
import Verif.Delete
/-!
# The life of a scheduler

Any number of runs under any execution ids, begun, continued and abandoned in any
interleaving, with anything the user does in between.
-/

set_option linter.unusedSectionVars false

namespace GS.Spec
variable {α κ W : Type _} [DecidableEq α] [DecidableEq κ]

/-- A generator returned by `run()`: its arguments, whether it is in absolute-time mode,
and where it is. -/
structure Gen (α κ W : Type _) where
  args : RunArgs α κ W
  abs : Bool
  pc : PC α

/-- States reachable from `s0`.  The first list is everything the generators did, each
entry with the execution id it was done under, oldest first.  The second list is all
generators ever started.  `U` is what the user may do to the scheduler apart from
iterating generators.  A generator may be continued at any time, even between two
internal steps of another one. -/
inductive Life (U : Sys α κ W → Sys α κ W → Prop) (s0 : Sys α κ W) :
    List (Option κ × Entry α κ W) → Sys α κ W → List (Gen α κ W) → Prop
  | init : Life U s0 [] s0 []
  | start {log : List (Option κ × Entry α κ W)} {s s' : Sys α κ W} {gs : List (Gen α κ W)}
      {a : RunArgs α κ W} {abs : Bool} :
      Life U s0 log s gs → s.start a = (s', .ok abs) → Life U s0 log s' (gs ++ [⟨a, abs, .outer⟩])
  | startFails {log : List (Option κ × Entry α κ W)} {s s' : Sys α κ W} {gs : List (Gen α κ W)}
      {a : RunArgs α κ W} {e : Err} :
      Life U s0 log s gs → s.start a = (s', .error e) → Life U s0 log s' gs
  | step {log : List (Option κ × Entry α κ W)} {s s' : Sys α κ W} {gs : List (Gen α κ W)}
      {k : Nat} {g : Gen α κ W} {pc' : PC α} {ev : Option (Event α)} :
      Life U s0 log s gs → gs[k]? = some g → s.step g.args g.abs g.pc = (s', pc', ev) →
      Life U s0 (log ++ ev.toList.map fun x => (g.args.id, ⟨s, x, s'⟩)) s'
        (gs.set k { g with pc := pc' })
  | user {log : List (Option κ × Entry α κ W)} {s s' : Sys α κ W} {gs : List (Gen α κ W)} :
      Life U s0 log s gs → U s s' → Life U s0 log s' gs

/-- What was done under the id `i`. -/
def under (i : Option κ) (log : List (Option κ × Entry α κ W)) : History α κ W :=
  log.filterMap fun p => if p.1 = i then some p.2 else none

/-- Two views that differ at most in what is stored under other execution ids. -/
structure SameFor (i : Option κ) (v v' : View α κ W) : Prop where
  nodes : v'.nodes = v.nodes
  mode : v'.mode = v.mode
  graph : v'.graph = v.graph
  queue : v'.queue = v.queue
  world : v'.world = v.world
  total : Dict.get? v'.countsTotal i = Dict.get? v.countsTotal i
  useable : Dict.get? v'.countsUseable i = Dict.get? v.countsUseable i
  list : Dict.get? v'.execList i = Dict.get? v.execList i
  stamps : Dict.get? v'.timestamps i = Dict.get? v.timestamps i
  clocks : Dict.get? v'.clocks i = Dict.get? v.clocks i

/-- Two states of the condition objects that agree for the id `i`. -/
structure SameStore (i : Option κ) (st st' : Store α κ) : Prop where
  owner : st'.owner = st.owner
  fresh : st'.fresh = st.fresh
  sat : ∀ o, st'.sat o i = st.sat o i

/-- Two scheduler states that differ at most in what is stored under other ids. -/
structure Agree (i : Option κ) (s s' : Sys α κ W) : Prop where
  view : SameFor i s.toView s'.toView
  store : SameStore i s.store s'.store
  conds : s'.conds = s.conds
  unit : s'.defaultUnit = s.defaultUnit

/-- A user function that does not look at what is stored under other ids. -/
def LocalFn (i : Option κ) (f : View α κ W → Option κ → Option α → Except Err Bool) : Prop :=
  ∀ v v' o, SameFor i v v' → f v' i o = f v i o

/-- A built-in condition, or a local user function. -/
def LocalLeaf (i : Option κ) : Leaf α κ W → Prop
  | .func f => LocalFn i f
  | _ => True

mutual
/-- No user function in the condition looks at what is stored under other ids. -/
def LocalCond (i : Option κ) : Cond α κ W → Prop
  | .leaf _ k => LocalLeaf i k
  | .whileNot _ f => LocalFn i f
  | .all _ args => LocalConds i args
  | .any _ args => LocalConds i args
  | .not _ c => LocalCond i c
  | .nwhen _ c _ => LocalCond i c
/-- The same for all components. -/
def LocalConds (i : Option κ) : List (Cond α κ W) → Prop
  | [] => True
  | c :: cs => LocalCond i c ∧ LocalConds i cs
end

/-- Operations under execution ids other than `i`, in any order: beginning runs (also
failing to), steps of runs (in any phase, so interleaved in any way), `get_clock`,
`end_environment_sequence` and the deletion of what is stored under an id. -/
inductive Others (i : Option κ) (s : Sys α κ W) : Sys α κ W → Prop
  | refl : Others i s s
  | start {s1 s2 : Sys α κ W} (b : RunArgs α κ W) (r : Except Err Bool) :
      Others i s s1 → b.id ≠ i → s1.start b = (s2, r) → Others i s s2
  | step {s1 s2 : Sys α κ W} (b : RunArgs α κ W) (abs : Bool) (pc pc' : PC α)
      (ev : Option (Event α)) :
      Others i s s1 → b.id ≠ i → s1.step b abs pc = (s2, pc', ev) → Others i s s2
  | clock {s1 : Sys α κ W} (j : Option κ) : Others i s s1 → j ≠ i → Others i s (s1.getClock j)
  | endSequence {s1 s2 : Sys α κ W} (j : Option κ) :
      Others i s s1 → j ≠ i → s1.endEnvironmentSequence j = .ok s2 → Others i s s2
  | delete {s1 : Sys α κ W} (j : Option κ) :
      Others i s s1 → j ≠ i → Others i s (s1.deleteCounts j)

/-- The id has counters and an execution list. -/
structure Known (i : Option κ) (s : Sys α κ W) : Prop where
  total : (Dict.get? s.countsTotal i).isSome
  useable : (Dict.get? s.countsUseable i).isSome
  list : (Dict.get? s.execList i).isSome

/-- The three dicts of counters and histories have the same ids as keys. -/
def Synced (s : Sys α κ W) : Prop := ∀ i,
  (Dict.get? s.countsUseable i).isSome = (Dict.get? s.countsTotal i).isSome ∧
  (Dict.get? s.execList i).isSome = (Dict.get? s.countsTotal i).isSome

/-- The scheduler with other run-level counts and useable counts under `i` (arbitrary
ones: whatever an abandoned run may have left behind). -/
def withRunCounts (i : Option κ) (f : TimeScale → α → Nat) (u : α → α → Nat)
    (s : Sys α κ W) : Sys α κ W :=
  { s with
    countsTotal := match Dict.get? s.countsTotal i with
      | none => s.countsTotal
      | some f0 => Dict.set s.countsTotal i
          (fun t n => if t.val ≤ TimeScale.environment_state_update.val then f t n else f0 t n)
    countsUseable := Dict.set s.countsUseable i u }

end GS.Spec
