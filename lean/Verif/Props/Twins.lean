import Verif.Twins
import Verif.Props.Reference
/-!
# C126: nodes with the same condition execute together
-/

set_option linter.unusedSectionVars false

namespace GS.Props
open Spec
variable {α κ W : Type _} [DecidableEq α] [DecidableEq κ]
variable {s0 s t : Sys α κ W} {w : List (List α) → World α κ W} {a : RunArgs α κ W}
variable {h : History α κ W} {pc : PC α} {runs : List (List (List (List α)))} {abs : Bool}
variable {l : List α} {n m : α}

/-- **C126.** If two nodes of a consideration set have the same condition (in two objects), or
none and the same senders, and it does not count calls of nodes of that set, then in every set a
run yields there are both of them or neither, whatever the nodes do in the meantime and whatever
runs were completed before (in which they were called equally often). -/
theorem C126_together (hd : DescribedNodes s0) (hu : Unused s0 a.id)
    (hc : CompleteRuns a.id s0 runs s) (hE : DescribedEnd a) (hr : Scripted w a s abs h t pc)
    (hq : ∀ i j x, At s0.queue i x → At s0.queue j x → i = j)
    (hl : l ∈ s0.queue) (hn : n ∈ l) (hm : m ∈ l) (ha : AlikeNodes s0 l n m)
    (hb : runs.flatten.flatten.flatten.count n = runs.flatten.flatten.flatten.count m) :
    ∀ X ∈ yields h, (n ∈ X ↔ m ∈ X) := by
  have hk := hc.like hd
  have htell := C81_tells s w a (by rw [hk.queue]; exact hq)
  obtain ⟨i, hi⟩ := List.getElem?_of_mem hl
  have pn := htell.place i n (by rw [hk.queue]; exact ⟨l, hi, hn⟩)
  have pm := htell.place i m (by rw [hk.queue]; exact ⟨l, hi, hm⟩)
  have huniq : ∀ l' ∈ s0.queue, n ∈ l' ∨ m ∈ l' → l' = l := by
    intro l' hl' hx
    obtain ⟨j, hj⟩ := List.getElem?_of_mem hl'
    have e : j = i := by
      rcases hx with hx | hx
      · exact hq j i n ⟨l', hj, hx⟩ ⟨l, hi, hn⟩
      · exact hq j i m ⟨l', hj, hx⟩ ⟨l, hi, hm⟩
    subst e
    rw [hi] at hj
    exact (Option.some.inj hj).symm
  have key := reference_together (abs := abs) (T := stop a (aroundOf s w a)) ha hn hm
    (pn.trans pm.symm) runs hb huniq (passes h) ⟨runs, [], [], []⟩ rfl rfl rfl
    (by intro X hX; cases hX)
  intro X hX
  exact (key X ((C81_prefix hd hu hc hE htell hr (Nat.le_refl _)).subset hX)).2.1

/-- The two nodes are called equally often in such a run. -/
theorem C126_calls (hd : DescribedNodes s0) (hu : Unused s0 a.id)
    (hc : CompleteRuns a.id s0 runs s) (hE : DescribedEnd a) (hr : Scripted w a s abs h t pc)
    (hq : ∀ i j x, At s0.queue i x → At s0.queue j x → i = j)
    (hl : l ∈ s0.queue) (hn : n ∈ l) (hm : m ∈ l) (ha : AlikeNodes s0 l n m)
    (hb : runs.flatten.flatten.flatten.count n = runs.flatten.flatten.flatten.count m) :
    (yields h).countP (fun X => decide (n ∈ X)) = (yields h).countP (fun X => decide (m ∈ X)) := by
  refine List.countP_congr fun X hX => ?_
  simpa using C126_together hd hu hc hE hr hq hl hn hm ha hb X hX

/-- The hypotheses hold for the second run of this scheduler and its nodes 0 and 2, which have no
condition and no senders. -/
example : DescribedNodes refSys ∧ Unused refSys refArgs.id ∧
    CompleteRuns refArgs.id refSys [passYields refFirst.1] refMid ∧ DescribedEnd refArgs ∧
    Scripted refWorld refArgs refMid false refSecond.1 refSecond.2.1 .returned ∧
    (∀ i j x, At refSys.queue i x → At refSys.queue j x → i = j) ∧
    [0, 1, 2] ∈ refSys.queue ∧ AlikeNodes refSys [0, 1, 2] 0 2 ∧
    [passYields refFirst.1].flatten.flatten.flatten.count 0 =
      [passYields refFirst.1].flatten.flatten.flatten.count 2 ∧
    (∃ X ∈ yields refSecond.1, 0 ∈ X) := by
  have k1 := scriptAfter_scripted (w := refWorld) (a := refArgs) (s0 := refSys) (abs := false)
    (by decide +kernel) 200
  have k2 := scriptAfter_scripted (w := refWorld) (a := refArgs) (s0 := refMid) (abs := false)
    (by decide +kernel) 200
  have e1 : (scriptAfter refWorld refArgs refSys 200).2.2 = .returned := refFirst_run.2
  have e2 : (scriptAfter refWorld refArgs refMid 200).2.2 = .returned := refSecond_run.2
  rw [e1] at k1
  rw [e2] at k2
  refine ⟨ref_described, ⟨by rfl, by rfl, .new, noNWhen_sat ref_conds⟩,
    .world _ (.run .nil rfl rfl ref_end.apart k1), ref_end, k2, ref_places (by decide +kernel),
    by decide +kernel, .inr ⟨by rfl, by rfl, [], [], by decide +kernel, by decide +kernel,
      fun _ => Iff.rfl, by simp⟩, by decide +kernel, by decide +kernel⟩

/-! ## Conditions in two objects -/

/-- Nodes 0 and 2 have `NWhen(EveryNPasses(2), 2)`, each its own. -/
def twinSys : Sys Nat Nat Unit :=
  (((Sys.new [(0, []), (1, []), (2, [])] .standard none 0 (refWorld [])).alloc 4).addBasic 0
    (.nwhen 0 (.leaf 1 (.everyNPasses 2 .environment_state_update)) 2)).addBasic 2
    (.nwhen 2 (.leaf 3 (.everyNPasses 2 .environment_state_update)) 2)

example : AlikeNodes twinSys [0, 1, 2] 0 2 :=
  .inl ⟨_, _, rfl, rfl, rfl, trivial⟩

example : passYields (scriptAfter refWorld refLimitedArgs twinSys 200).1 =
    [[[0, 1, 2]], [[1]], [[0, 1, 2]], [[1]], [[1]], [[1]]] := by decide +kernel

/-! ## Conditions that count calls in the same set -/

/-- Nodes 0 and 2 have `BeforeNCalls(1, 1)`. -/
def firstOnly : Sys Nat Nat Unit :=
  (((Sys.new [(0, []), (1, []), (2, [])] .standard none 0 (refWorld [])).alloc 2).addBasic 0
    (.leaf 0 (.beforeNCalls 1 1 .environment_state_update))).addBasic 2
    (.leaf 1 (.beforeNCalls 1 1 .environment_state_update))

/-- **C126.** The proviso is needed: node 1, which their conditions count, is considered between
nodes 0 and 2, and only the first of the two executes. -/
theorem C126_same_set : ∃ (c d : Cond Nat Nat Unit) (h : History Nat Nat Unit) (t : Sys Nat Nat Unit),
    Dict.get? firstOnly.conds 0 = some c ∧ Dict.get? firstOnly.conds 2 = some d ∧ bare c = bare d ∧
    firstOnly.queue = [[0, 1, 2]] ∧ Scripted refWorld refLimitedArgs firstOnly false h t .returned ∧
    passYields h = [[[0, 1]], [[1]], [[1]], [[1]], [[1]], [[1]]] := by
  have k := scriptAfter_scripted (w := refWorld) (a := refLimitedArgs) (s0 := firstOnly) (abs := false)
    (by decide +kernel) 200
  have e : (scriptAfter refWorld refLimitedArgs firstOnly 200).2.2 = .returned := by decide +kernel
  rw [e] at k
  exact ⟨_, _, _, _, rfl, rfl, rfl, by decide +kernel, k, by decide +kernel⟩

end GS.Props
