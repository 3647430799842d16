import Verif.Props.GSC
import Verif.Props.GSCArgs
import Verif.Props.ConflictText
import Verif.Props.CondSet
import Verif.Props.Args
import Verif.Props.CondAttrs
import Verif.Props.Adopt
import Verif.Props.Custom
import Verif.Props.Composite
/-!
# Theorems about graphs and condition sets applied to concrete cases
-/

set_option linter.unusedSectionVars false

namespace GS.Props
open GS.Spec

/-! ## Structural conditions -/

/-- No cycles are listed. -/
abbrev noCycles : Graph Nat → List (List Nat) := fun _ => []

theorem before_constructible : Constructible gscBefore 3 := ⟨by decide, fun h => by cases h⟩

example : ∃ t, (GSC.reposition gscBefore).modifyGraph noCycles 3 gscGraph = .ok t ∧
    ∀ n ∈ gscBefore.nodes, Edge t.value 3 n := by
  refine ⟨_, rfl, fun n hn => ?_⟩
  exact (C36_before_partial (cyc := noCycles) (c := gscBefore) (owner := 3) (s := gscGraph)
    (t := _) (hs := gscGraph_ok) (hk := rfl) (hc := before_constructible)
    (ha := .inl (.inl (by decide))) (h := rfl) n hn).1

/-- Different nodes have different sets. -/
theorem gscGraph_apart : ∀ n m a, Dict.get? gscGraph.graph n = some a →
    Dict.get? gscGraph.graph m = some a → n = m := by
  have hg : gscGraph.graph = [(0, 0), (1, 1), (2, 2), (3, 3)] := by decide
  rw [hg]
  intro n m a
  simp only [Dict.get?_cons, Dict.get?_nil]
  grind

example := C39_argument (cyc := noCycles) (owner := 3) (s := gscGraph)
  (d := .reposition gscBefore) (t := _) (hs := gscGraph_ok) (hc := by decide) (h := rfl)
example := C40_operations (c := gscQuarrel) (owner := 3) (s := gscGraph) (hs := gscGraph_ok)
  (hin := by decide) (hn := by decide) (hc := by decide) (hi := gscGraph_apart)
example := C40_rejected (cyc := noCycles) (c := gscQuarrel) (owner := 3) (s := gscGraph)
  (hs := gscGraph_ok) (hc := C105_depends.1)
example := C42_errors (cyc := noCycles) (c := gscQuarrel) (owner := 3) (s := gscGraph)
  (hs := gscGraph_ok) (hc := C105_depends.1) (e := .conditionError) (h := by rfl)
example := C42_terminates (c := gscBefore) (owner := 3) (cyc := noCycles) (s := gscGraph)
  (base := []) (hs := gscGraph_ok) (fuel := 100) (hfuel := by decide)
example := C105_graphs (isStr := fun n => n != 1) (cyc := noCycles) (c := gscQuarrel) (owner := 3)
  (s := gscGraph) (hs := gscGraph_ok) (hc := C105_depends.1)
example := C105_strings_partial (isStr := fun _ => true) (cyc := noCycles) (c := gscQuarrel)
  (owner := 3) (s := gscGraph) (hs := gscGraph_ok) (hc := C105_depends.1) (hi := fun _ => rfl)
example := C105_unprintable (isStr := fun _ => false) (cyc := noCycles) (c := gscQuarrel)
  (owner := 3) (s := gscGraph) (hs := gscGraph_ok) (hc := C105_depends.1) (hi := fun _ => rfl)

/-! ## Condition sets -/

example := C43_one_call _ _ _ someSet_holds (.add 3 (.basic (.all 9 []))) none rfl
example := C43_owner someSet _ 3 (.basic (.all 9 [])) rfl
example := C44_owner_nothing _ _ someSet_holds 77 (fun c h => by
  simp [someAdditions, SetOp.adds, listed] at h)
example := C44_ownerless someSet (.basic (.all 99 [])) rfl

/-! ## Calls -/

example := C52_call (V := Nat) (sig := schedulerSig) (cargs := [1]) (ckw := [("x", 7)]) (eargs := [])
  (e := 0) (ekw := [("scheduler", 3)]) (by simp [Dict.WF]) rfl
example := C52_collisions (V := Nat) schedulerSig [1] [] [("x", 7)] [("scheduler", 3)] 0
  (by simp [Dict.WF])
example := C107_method (py := somePy) (cargs := [7]) (kw := [("y", 3), ("is_satisfied", 3)])
  (by simp [Dict.WF]) rfl (by decide)
example := C107_swallowed (py := somePy) (cargs := [7]) (kw := [("y", 3), ("_owner", 4)])
  (by simp [Dict.WF]) rfl (by decide) (by decide)
example := C107_keywords (py := somePy) (cargs := [7]) (kw := [("y", 3), ("kwargs", 101)])
  (by simp [Dict.WF]) rfl rfl (by decide)
example := C102_named_partial (o := 5) (v := (Sys.new [(1, [0])] .standard none 1 demoWorld).toView)
  (id := none) (args := [.leaf 0 .always])
  (.inr ⟨"x", [.leaf 0 .never], rfl⟩)

/-! ## Condition sets in other schedulers -/

example := C100_conditions .standard .exactTime threeNodes threeNodes noOwners (fun _ => none)
  twiceOps _ twiceOps_quiet twiceOps_oneOwner 0
example := C100_order .standard .exactTime threeNodes threeNodes noOwners (fun _ => none)
  twiceOps _ twiceOps_quiet twiceOps_oneOwner

end GS.Props
