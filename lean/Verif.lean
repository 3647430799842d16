import Verif.Basic
import Verif.Time
import Verif.TimeLemmas
import Verif.TimeLemmas2
import Verif.Props.Time
import Verif.GraphLemmas
import Verif.Props.Graph
import Verif.Condition
import Verif.Scheduler
import Verif.SchedLemmas
import Verif.Spec.Run
import Verif.RunLemmas
import Verif.RunInv
import Verif.RunCounts
import Verif.RunFix
import Verif.Props.Demo
import Verif.RunPass
import Verif.RunDefault
import Verif.Props.Run
import Verif.Props.RunCounts
import Verif.RunEnds
import Verif.Props.RunEnds
import Verif.RunClock
import Verif.Props.RunClock
import Verif.Agree
import Verif.Isolate
import Verif.Spec.Life
import Verif.Life
import Verif.Props.Life
import Verif.RunWhole
import Verif.LifeDefault
import Verif.Props.Default
import Verif.Spec.Cond
import Verif.Props.CondTime
import Verif.Objects
import Verif.Props.Conditions
import Verif.CondSet
import Verif.Spec.CondSet
import Verif.CondSetLemmas
import Verif.Props.CondSet
import Verif.Structural
import Verif.Spec.Structural
import Verif.StructuralLemmas
import Verif.StructuralUndo
import Verif.Props.Structural
import Verif.Util
import Verif.UtilLemmas
import Verif.Props.Util
import Verif.GSC
import Verif.Spec.GSC
import Verif.GSCHeap
import Verif.GSCOps
import Verif.GSCPost
import Verif.GSCMod
import Verif.GSCFacts
import Verif.Props.GSC
import Verif.GraphEdges
import Verif.Props.GraphEdges
import Verif.Props.RunOrder
import Verif.TermConds
import Verif.Spec.TermConds
import Verif.TermLemmas
import Verif.Props.TermConds
import Verif.Args
import Verif.Props.Args
import Verif.Cache
import Verif.Props.Cache
import Verif.Whole
import Verif.Props.Whole
import Verif.Spec.Share
import Verif.Share
import Verif.Props.Share
import Verif.Spec.Absolute
import Verif.Absolute
import Verif.AbsUnit
import Verif.AbsRun
import Verif.Props.Absolute
import Verif.AbsRepeat
import Verif.AbsRepeatRun
import Verif.FullPasses
import Verif.Props.AbsRepeat
import Verif.Props.AbsExact
import Verif.Props.AbsTerm
import Verif.Props.AbsInterval
import Verif.Spec.Order
import Verif.Order
import Verif.OrderRun
import Verif.OrderSim
import Verif.OrderBig
import Verif.OrderStart
import Verif.Props.Order
import Verif.Spec.EveryN
import Verif.EveryN
import Verif.Spec.Rates
import Verif.Rates
import Verif.Props.EveryN
import Verif.Convenience
import Verif.Decided
import Verif.Spec.Values
import Verif.Props.Decided
import Verif.Props.Threshold
import Verif.Units
import Verif.Spec.Units
import Verif.UnitsLemmas
import Verif.Props.Units
import Verif.Spec.Equiv
import Verif.Equiv
import Verif.EquivStart
import Verif.EquivLaws
import Verif.Props.Equiv
import Verif.Spec.Cut
import Verif.Cut
import Verif.CutLasting
import Verif.Props.Cut
import Verif.Spec.Part
import Verif.Part
import Verif.PartLoop
import Verif.PartRun
import Verif.PartMach
import Verif.PartGraph
import Verif.Props.Part
import Verif.Alias
import Verif.Spec.Alias
import Verif.AliasLemmas
import Verif.AliasOps
import Verif.Props.Alias
import Verif.Spec.Again
import Verif.Again
import Verif.AgainRun
import Verif.Props.Again
import Verif.Spec.Session
import Verif.Session
import Verif.Props.Session
import Verif.Spec.Placed
import Verif.Placed
import Verif.Props.Placed
import Verif.Spec.NPasses
import Verif.NPasses
import Verif.Props.NPasses
import Verif.Spec.RatedList
import Verif.RatedList
import Verif.Props.RatedList
import Verif.Delete
import Verif.Spec.Delete
import Verif.DeleteLemmas
import Verif.Props.Delete
import Verif.Spec.Reference
import Verif.Reference
import Verif.ReferenceRun
import Verif.ReferenceSim
import Verif.ReferenceSat
import Verif.ReferenceFit
import Verif.Props.Reference
import Verif.Spec.Rename
import Verif.Rename
import Verif.RenameRun
import Verif.Props.Rename
import Verif.Spec.Restate
import Verif.Restate
import Verif.RestateRule
import Verif.RestateStart
import Verif.Props.Restate
import Verif.Warn
import Verif.Spec.Warn
import Verif.WarnLemmas
import Verif.Props.Warn
import Verif.Props.WarnGraph
import Verif.GSCArgs
import Verif.Spec.GSCArgs
import Verif.GSCArgsLemmas
import Verif.Props.GSCArgs
import Verif.Spec.Safe
import Verif.SafeLemmas
import Verif.Props.Safe
import Verif.Spec.Edits
import Verif.Props.Edits
import Verif.Custom
import Verif.Spec.Custom
import Verif.Props.Custom
import Verif.Spec.Midrun
import Verif.Props.Midrun
import Verif.Spec.Quota
import Verif.Quota
import Verif.Props.Quota
import Verif.Spec.Work
import Verif.Work
import Verif.Props.Work
import Verif.Spec.Stuck
import Verif.Stuck
import Verif.StuckRun
import Verif.StuckLive
import Verif.Props.Stuck
import Verif.Adopt
import Verif.AdoptSelf
import Verif.Props.Adopt
import Verif.RenameObj
import Verif.RenameObjStart
import Verif.Touch
import Verif.Spec.Together
import Verif.Together
import Verif.Props.Together
import Verif.Composite
import Verif.Spec.Composite
import Verif.Props.Composite
import Verif.Spec.Loosen
import Verif.Loosen
import Verif.LoosenRun
import Verif.LoosenCond
import Verif.Props.Loosen
import Verif.Props.Regraph
import Verif.RemoveBasic
import Verif.Props.Tempo
import Verif.ConflictText
import Verif.Props.ConflictText
import Verif.Spec.Fork
import Verif.Fork
import Verif.ForkRun
import Verif.Props.Fork
import Verif.CondAttrs
import Verif.Props.CondAttrs
import Verif.RenameIdRun
import Verif.Props.RenameId
import Verif.ClockObjs
import Verif.Props.ClockObjs
import Verif.Props.Instances
import Verif.Props.InstancesGraph
import Verif.Spec.Blocked
import Verif.Blocked
import Verif.Props.Blocked
import Verif.Props.InstancesEdits
import Verif.Spec.SameGraph
import Verif.SameGraph
import Verif.Cycles
import Verif.Props.SameGraph
import Verif.Props.SameScheduler
import Verif.Spec.RenameStack
import Verif.RenameGSC
import Verif.RenameStack
import Verif.Props.RenameStack
import Verif.Props.Isomorphic
import Verif.Spec.Patterns
import Verif.PatternLemmas
import Verif.Props.Patterns
import Verif.Spec.SameTime
import Verif.Props.SameTime
import Verif.Props.Indices
import Verif.Spec.AsIf
import Verif.Props.AsIf
import Verif.Rounded
import Verif.Props.Rounded
import Verif.Spec.GoesFirst
import Verif.GoesFirst
import Verif.Props.GoesFirst
import Verif.Spec.SameSetRates
import Verif.SameSetRates
import Verif.Props.SameSetRates
import Verif.Spec.Phasing
import Verif.Phasing
import Verif.Props.Phasing
import Verif.Spec.Tamper
import Verif.Tamper
import Verif.Props.Tamper
import Verif.Spec.ExactMode
import Verif.ExactMode
import Verif.Props.ExactMode
import Verif.TimeText
import Verif.Spec.TimeText
import Verif.Props.TimeText
import Verif.TimeObjs
import Verif.Spec.TimeObjs
import Verif.Props.TimeObjs
import Verif.Strict
import Verif.Spec.Strict
import Verif.StrictLemmas
import Verif.Props.Strict
import Verif.Spec.Twins
import Verif.Twins
import Verif.Props.Twins
import Verif.StrictRun
import Verif.Props.StrictRun
import Verif.Spec.ByPass
import Verif.ByPass
import Verif.Props.ByPass
import Verif.AsOne
import Verif.Props.AsOne
import Verif.Spec.RateChain
import Verif.RateChain
import Verif.Props.RateChain
import Verif.Spec.Recurrence
import Verif.Recurrence
import Verif.Props.Recurrence
import Verif.Spec.Standstill
import Verif.Standstill
import Verif.Props.Standstill
import Verif.Spec.OneRun
import Verif.OneRun
import Verif.Props.OneRun
import Verif.Spec.AllAlike
import Verif.AllAlike
import Verif.Props.AllAlike
