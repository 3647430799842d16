import Verif.RenameRun
import Verif.Props.Order
/-!
# C82: the names of nodes do not matter

Specification: `Verif/Spec/Rename.lean`.
-/

set_option linter.unusedSectionVars false

namespace GS.Props
open Spec
variable {α β κ W : Type _} [DecidableEq α] [DecidableEq β] [DecidableEq κ]
variable {a : RunArgs α κ W} {abs : Bool} {s0 s : Sys α κ W} {pc : PC α} {h : History α κ W}
variable {w : List (List α) → World α κ W}

theorem yield_rename (r : Renaming α β) (e : Event α) :
    (renameEvent r e).yield? = e.yield?.map (List.map r.to) := by
  cases e with
  | layer idx set shown => cases shown <;> rfl
  | _ => rfl

theorem yields_rename (r : Renaming α β) (h : History α κ W) :
    yields (renameHistory r h) = renameSets r (yields h) := by
  unfold yields renameHistory renameSets
  induction h with
  | nil => rfl
  | cons e h ih =>
    simp only [List.map_cons, List.filterMap_cons, yield_rename]
    cases e.ev.yield? with
    | none => exact ih
    | some x => simp only [Option.map_some, List.map_cons, ih]

theorem resumed_rename (r : Renaming α β) (w : List (List α) → World α κ W) (ys : List (List α))
    (s : Sys α κ W) (pc : PC α) :
    resumed (renameConsumer r w) (renameSets r ys) (renameSys r s) (renamePC r pc) =
      renameSys r (resumed w ys s pc) := by
  have h : (renamePC r pc).suspended = pc.suspended := by cases pc <;> rfl
  unfold resumed
  rw [h]
  cases pc.suspended with
  | false => rfl
  | true =>
    simp only [if_true, renameConsumer, r.sets_back]
    rfl

theorem history_snoc (r : Renaming α β) (h : History α κ W) (s s' : Sys α κ W)
    (ev : Option (Event α)) :
    renameHistory r (h ++ ev.toList.map fun x => ⟨s, x, s'⟩) =
      renameHistory r h ++ (ev.map (renameEvent r)).toList.map fun x =>
        ⟨renameSys r s, x, renameSys r s'⟩ := by
  unfold renameHistory
  rw [List.map_append]
  cases ev <;> rfl

/-- C82: the scheduler for the renamed graph is the renamed scheduler: its nodes and its
consideration queue are the renamed ones. -/
theorem C82_new (r : Renaming α β) (g : Graph α) (mode : Mode) (id : Option κ) (unit : Rat)
    (x : World α κ W) :
    Sys.new (renameGraph r g) mode id unit (renameWorld r x) =
      renameSys r (Sys.new g mode id unit x) :=
  new_rename r g mode id unit x

/-- C82: adding the renamed condition to the renamed node of the renamed scheduler gives the
renamed result. -/
theorem C82_add (r : Renaming α β) (s : Sys α κ W) (n : α) (c : Cond α κ W) (k : Nat) :
    ((renameSys r s).alloc k).addBasic (r.to n) (renameCond r c) =
      renameSys r ((s.alloc k).addBasic n c) := by
  rw [alloc_rename, addBasic_rename]

/-- C82: a run of the renamed scheduler starts, or raises, as the run of the scheduler does. -/
theorem C82_start (r : Renaming α β) (s0 : Sys α κ W) (a : RunArgs α κ W) :
    ((renameSys r s0).start (renameArgs r a)).2 = (s0.start a).2 := by
  rw [start_rename]; rfl

/-- C82: whatever a run does, the run of the renamed scheduler does with the new names, at
every moment and with every consumer; and it does nothing else. -/
theorem C82_run (r : Renaming α β) :
    (Scripted w a s0 abs h s pc →
      Scripted (renameConsumer r w) (renameArgs r a) (renameSys r s0) abs (renameHistory r h)
        (renameSys r s) (renamePC r pc)) ∧
    ∀ h' s' pc', Scripted (renameConsumer r w) (renameArgs r a) (renameSys r s0) abs h' s' pc' →
      ∃ h s pc, Scripted w a s0 abs h s pc ∧ h' = renameHistory r h ∧ s' = renameSys r s ∧
        pc' = renamePC r pc := by
  constructor
  · intro hr
    induction hr with
    | start hs =>
      refine .start ?_
      rw [start_rename, hs]; rfl
    | @step h s t pc pc' ev _ hs ih =>
      rw [history_snoc]
      have k := step_rename r (resumed w (yields h) s pc) a abs pc
      rw [hs] at k
      have e := resumed_rename r w (yields h) s pc
      rw [← e, ← yields_rename] at k
      rw [← e, ← yields_rename]
      exact .step ih k
  · intro h' s' pc' hr
    induction hr with
    | start hs =>
      rw [start_rename] at hs
      have e1 := congrArg Prod.fst hs
      have e2 := congrArg Prod.snd hs
      exact ⟨[], (s0.start a).1, .outer, .start (Prod.ext rfl e2), rfl, e1.symm, rfl⟩
    | @step h' s' t' pc' p' ev' _ hs ih =>
      obtain ⟨h, s, pc, k1, rfl, rfl, rfl⟩ := ih
      rw [yields_rename, resumed_rename, step_rename] at hs
      rcases e : (resumed w (yields h) s pc).step a abs pc with ⟨t, p, ev⟩
      rw [e] at hs
      have e1 : renameSys r t = t' := congrArg Prod.fst hs
      have e2 : renamePC r p = p' := congrArg (fun x => x.2.1) hs
      have e3 : ev.map (renameEvent r) = ev' := congrArg (fun x => x.2.2) hs
      refine ⟨_, _, _, .step k1 e, ?_, e1.symm, e2.symm⟩
      rw [history_snoc, yields_rename, resumed_rename, ← e1, ← e3]

/-- C82: the sets a run of the renamed scheduler yields are the renamed sets. -/
theorem C82_yields (r : Renaming α β) (hr : Scripted w a s0 abs h s pc) :
    ∃ h' s', Scripted (renameConsumer r w) (renameArgs r a) (renameSys r s0) abs h' s'
        (renamePC r pc) ∧ yields h' = renameSets r (yields h) :=
  ⟨_, _, (C82_run r).1 hr, yields_rename r h⟩

/-! ## A concrete case -/

/-- Node `n` is called `(n, ())`. -/
def renDemo : Renaming Nat (Nat × Unit) :=
  ⟨fun n => (n, ()), fun p => p.1, fun _ => rfl, fun _ => rfl⟩

/-- The demo scheduler (node 2 executes after every two calls of node 0) with pairs as nodes:
it is the renamed one, and its run yields the renamed sets. -/
example :
    ((Sys.new [((1, ()), [(0, ())]), ((2, ()), [(0, ())])] .standard none 1
      (renameWorld renDemo demoWorld)).alloc 1).addBasic (2, ()) (.leaf 0 (.everyNCalls (0, ()) 2)) =
      renameSys renDemo demo ∧
    ∃ h s, Scripted (renameConsumer renDemo constWorld) (renameArgs renDemo demoArgs)
      (renameSys renDemo demo) false h s .returned ∧
      yields h = [[(0, ())], [(1, ())], [(0, ())], [(1, ()), (2, ())]] := by
  constructor
  · have k := C82_new renDemo [(1, [0]), (2, [0])] .standard (none : Option Nat) 1 demoWorld
    have e : demo = ((Sys.new [(1, [0]), (2, [0])] .standard none 1 demoWorld).alloc 1).addBasic 2
      (.leaf 0 (.everyNCalls 0 2)) := rfl
    rw [e, ← C82_add, ← k]
    rfl
  · have k1 := scriptAfter_scripted (w := constWorld) (a := demoArgs) (s0 := demo) (abs := false)
      (by decide +kernel) 40
    have e : (scriptAfter constWorld demoArgs demo 40).2.2 = .returned := by decide +kernel
    rw [e] at k1
    obtain ⟨h', s', h1, h2⟩ := C82_yields renDemo k1
    refine ⟨h', s', h1, h2.trans ?_⟩
    have e2 : yields (scriptAfter constWorld demoArgs demo 40).1 = [[0], [1], [0], [1, 2]] := by
      decide +kernel
    rw [e2]
    rfl

end GS.Props
