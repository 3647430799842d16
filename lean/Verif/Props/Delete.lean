import Verif.DeleteLemmas
import Verif.Props.Life
/-!
# C80: deleting what is stored under an execution id
-/

set_option linter.unusedSectionVars false

namespace GS.Props
open Spec
variable {α κ W : Type _} [DecidableEq α] [DecidableEq κ]
variable {a : RunArgs α κ W} {s0 s t u : Sys α κ W} {i j : Option κ}
variable {abs : Bool} {h : History α κ W} {pc : PC α}

/-- C80: afterwards nothing is stored under the id, and everything stored under the other ids
is as before; so is the rest of the scheduler, also the condition objects. -/
theorem C80_gone (s : Sys α κ W) (i : Option κ) :
    Unknown i (s.deleteCounts i) ∧ (∀ j, j ≠ i → SameFor j s.toView (s.deleteCounts i).toView) ∧
    (s.deleteCounts i).conds = s.conds ∧ (s.deleteCounts i).store = s.store := by
  refine ⟨?_, fun j hj => ((Sys.deleteCounts_other s i).agree (Ne.symm hj)).view, rfl, rfl⟩
  constructor <;> simp [Sys.deleteCounts, Dict.get?_delete]

/-- C80: take a scheduler `s` on which the id `i` was never used. Whatever is done with it,
under `i` and under other ids, once what is stored under `i` is deleted, a run under `i` with
`base_execution_id=NotImplemented` does exactly what it would have done at first: the same
events, hence the same sets. (The condition objects keep what `NWhen` counted under `i`,
`C80_nwhen_kept`; here nothing was counted.) -/
theorem C80_forgets (hu : Used s t) (hs : Unknown a.id s) (us : Uncounted a.id s)
    (ut : Uncounted a.id t) (hb : a.base = none)
    (he : LocalCond a.id a.esu) (hq : LocalCond a.id a.seq)
    (hc : ∀ n c, Dict.get? s.conds n = some c → LocalCond a.id c)
    (hr : Reach (fun _ _ => False) a (t.deleteCounts a.id) abs h u pc) :
    ∃ h2 u2, Reach (fun _ _ => False) a s abs h2 u2 pc ∧ h2.map (·.ev) = h.map (·.ev) ∧
      yields h2 = yields h ∧ SameFor a.id u2.toView u.toView := by
  have hb' := (Used.delete a.id hu).bare
  have hr' := ready_of_bare hb'.1 hb'.2 hs (C80_gone t a.id).1 us ut
  obtain ⟨h2, u2, h3, h4, h5, _⟩ := hr.ready hr' (.inl hb) he hq hc
  refine ⟨h2, u2, h3, h4, ?_, h5.view⟩
  have : ∀ h : History α κ W, yields h = (h.map (·.ev)).filterMap Event.yield? := by
    intro h; simp only [yields, List.filterMap_map]; rfl
  rw [this, this, h4]

/-- C80: when the context from which contexts are copied has been deleted (for `run()` without
arguments: the default one), a run under an id not in use raises `SchedulerError`. -/
theorem C80_base_deleted (hsy : Synced s) {b : Option κ} (hb : a.base = some b)
    (hn : a.id = b ∨ Dict.get? s.countsTotal a.id = none)
    (hg : ∀ n ∈ s.nodes, (Dict.get? s.graph n).isSome) (hq : s.queue ≠ []) :
    ∃ s', (s.deleteCounts b).start a = (s', .error .schedulerError) := by
  have hsy' : Synced (s.deleteCounts b) := by
    intro i
    simp only [Sys.deleteCounts, Dict.get?_delete]
    by_cases hi : i = b
    · simp [hi]
    · simp only [if_neg hi]; exact hsy i
  obtain ⟨s', h1, _⟩ := C29_unknown_base (a := a) hsy' hb
    (by
      simp only [Sys.deleteCounts, Dict.get?_delete]
      rcases hn with h | h
      · simp [h]
      · split <;> simp [h])
    (by simp [Sys.deleteCounts, Dict.get?_delete]) hg hq
  exact ⟨s', h1⟩

/-- One node with the condition `NWhen(Always(), 1)`. -/
def onceWhen : Sys Nat Nat Unit :=
  ((Sys.new [(0, [])] .standard none 1 demoWorld).alloc 2).addBasic 0
    (.nwhen 0 (.leaf 1 .always) 1)

/-- One pass; the context is made from scratch. -/
def onceWhenArgs : RunArgs Nat Nat Unit :=
  { id := some 7, base := none, esu := .leaf 10 (.afterNPasses 1 .environment_state_update)
    seq := .leaf 11 .never }

/-- C80: what `NWhen` counted under the id is not deleted: the first run yields the node, the
run after the deletion does not. -/
theorem C80_nwhen_kept :
    yieldsOf onceWhen onceWhenArgs 12 = [[0]] ∧
    (runAfter onceWhen onceWhenArgs 12).2.2 = .returned ∧
    yieldsOf ((runAfter onceWhen onceWhenArgs 12).2.1.deleteCounts (some 7)) onceWhenArgs 12 = [[]] := by
  decide +kernel

/-- The id 7, on `demo`. -/
def demoSeven : RunArgs Nat Nat Unit := { demoArgs with id := some 7, base := none }

/-- After a run under 7 and the deletion, a run under 7 yields the same again; without the
deletion the history of the first run is still there. -/
example : Unknown (some 7) demo ∧ Uncounted (some 7) demo ∧
    (runAfter demo demoSeven 40).2.2 = .returned ∧
    yields (runAfter demo demoSeven 40).1 = [[0], [1], [0], [1, 2]] ∧
    Dict.get? (runAfter demo demoSeven 40).2.1.execList (some 7) = some [[0], [1], [0], [1, 2]] ∧
    yieldsOf ((runAfter demo demoSeven 40).2.1.deleteCounts (some 7)) demoSeven 40 =
      [[0], [1], [0], [1, 2]] :=
  ⟨⟨rfl, rfl, rfl, rfl, rfl⟩, fun _ => rfl, by decide +kernel, by decide +kernel, by decide +kernel,
    by decide +kernel⟩

/-- Such a run is activity in the sense of `C80_forgets`. -/
theorem used_of_reach (hr : Reach (fun _ _ => False) a s abs h t pc) : Used s t := by
  induction hr with
  | start hs => exact .start a _ .refl hs
  | step _ hs ih => exact .step a _ _ _ _ ih hs
  | env _ _ h => exact h.elim

example : Synced demo ∧ demoArgs.base = some none ∧ demoArgs.id = none ∧
    (∀ n ∈ demo.nodes, (Dict.get? demo.graph n).isSome) ∧ demo.queue ≠ [] :=
  ⟨Sys.new_synced [(1, [0]), (2, [0])] .standard none 1 demoWorld, rfl, rfl, by decide, by decide⟩

end GS.Props
