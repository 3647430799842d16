import Verif.Whole
import Verif.RunWhole
import Verif.Props.RunCounts
import Verif.Props.Structural
import Verif.Props.GSC
/-!
# C54: implicit conditions and changes of the graph
-/

set_option linter.unusedSectionVars false

namespace GS.Props
open Spec
variable {α κ W : Type _} [DecidableEq α] [DecidableEq κ]
variable {E E' : Sys α κ W → Sys α κ W → Prop} {a b : RunArgs α κ W} {s0 s t s' : Sys α κ W}
variable {abs abs' : Bool} {h h' : History α κ W} {pc pc' : PC α}

/-- C54, the first run: after any additions and removals of structural conditions, a run
begins.  A node that has no explicit condition then is satisfied exactly when every
sender it has in the base graph transformed by the structural conditions present was
selected since its own last selection.  What is missing: later runs (`C54_frozen`,
`C54_stale`). -/
theorem C54_first_run_partial (base : Graph α) (mode : Mode) (st : Store α κ)
    (ow : OId → Option α) (ops : List (SchedOp α κ W)) (w : Whole α κ W)
    (hq : Quiet (Stack.new mode base st ow) ops w.stack) (h1 : OneOwner (ops.flatMap SchedOp.adds))
    (g : Graph α) (hg : composed base (present ops) = .ok g) (hs : w.sys = .ok s0)
    (hr : Reach E a s0 abs h s pc)
    (hE : Keeps E (fun s => s.conds)) (hE2 : Keeps E (fun s => s.store.owner))
    (hE3 : ∀ s s', E s s' → s.store.fresh ≤ s'.store.fresh) (hEn : Keeps E (fun s => s.nodes))
    (hEu : Keeps E (fun s => Dict.get? s.countsUseable a.id))
    {n : α} {senders : List α} (hn : n ∈ w.rest.nodes)
    (hc : Dict.get? w.stack.cset.basic n = none) (hgn : Dict.get? g n = some senders)
    (hd : ∀ d ∈ senders, d ∈ w.rest.nodes ∧ d ≠ n) (x : Bool) :
    NodeCond s a.id n x ↔ (x = true ↔ ∀ d ∈ senders, d ∈ since n (selections h)) := by
  obtain ⟨k1, k2, _⟩ := C32_composition_partial mode base st ow ops w.stack hq h1
  rw [hg] at k1 k2
  have e : s0 = { w.rest with
      graph := g, queue := queueFor mode g, conds := w.stack.cset.basic,
      store := w.stack.cset.store } := by
    simp only [Whole.sys, k1, k2, onGraph, Except.ok.injEq] at hs
    exact hs.symm
  subst e
  exact C10_default_condition hr hE hE2 hE3 hEn hEu hn hc hgn hd x

/-- Between two runs anything may happen except that the node `n` gets another condition,
that the owners of existing condition objects change, or that nodes come or go.  In
particular the graph and the consideration queue may change. -/
structure Gap (n : α) (s t : Sys α κ W) : Prop where
  nodes : t.nodes = s.nodes
  cond : Dict.get? t.conds n = Dict.get? s.conds n
  store : StoreExt s.store t.store

/-- C54 is false in general: in every later run the implicit condition still refers to
the senders which the node had in the graph when the first run began, whatever the graph
is now. -/
theorem C54_frozen (hr : Reach E a s0 abs h s pc)
    (hE : Keeps E (fun s => s.conds)) (hE2 : Keeps E (fun s => s.store.owner))
    (hE3 : ∀ s s', E s s' → s.store.fresh ≤ s'.store.fresh) (hEn : Keeps E (fun s => s.nodes))
    {n : α} {senders : List α} (hn : n ∈ s0.nodes) (hc : Dict.get? s0.conds n = none)
    (hg : Dict.get? s0.graph n = some senders) (hd : ∀ d ∈ senders, d ∈ s0.nodes ∧ d ≠ n)
    (hgap : Gap n s t) (hr' : Reach E' b t abs' h' s' pc')
    (hE' : Keeps E' (fun s => s.conds)) (hE2' : Keeps E' (fun s => s.store.owner))
    (hE3' : ∀ s s', E' s s' → s.store.fresh ≤ s'.store.fresh) (hEn' : Keeps E' (fun s => s.nodes))
    (hEu' : Keeps E' (fun s => Dict.get? s.countsUseable b.id)) (x : Bool) :
    NodeCond s' b.id n x ↔ (x = true ↔ ∀ d ∈ senders, d ∈ since n (selections h')) := by
  obtain ⟨s1, hs1, hc1, ho1, hf1⟩ := hr.conds_start hE hE2 hE3
  obtain ⟨_, _, x3, _⟩ := (Sys.start_ok hs1).conds_spec
  obtain ⟨deps', c, e1, e2, e3⟩ := x3 n hn hc
  rw [hg] at e1; injection e1 with e1; subst e1
  obtain ⟨t1, ht1, hc2, ho2, hf2⟩ := hr'.conds_start hE' hE2' hE3'
  obtain ⟨y1, y2, _, _⟩ := (Sys.start_ok ht1).conds_spec
  have hdef : IsDefault s'.store n senders c :=
    (((e3.grow ho1 hf1).ext hgap.store).ext y1).grow ho2 hf2
  have hcs : Dict.get? s'.conds n = some c := by
    rw [hc2]; exact y2 n c (by rw [hgap.cond, hc1]; exact e2)
  obtain ⟨u, hu, ui⟩ := hr'.useable hEu'
  have hnodes : s'.nodes = s0.nodes :=
    (hr'.keepNodes hEn').trans (hgap.nodes.trans (hr.keepNodes hEn))
  have hev := hdef.eval (v := s'.toView) (id := b.id) hu (by rw [hnodes]; exact hn)
    (fun d hdd => by rw [hnodes]; exact (hd d hdd).1)
  have hiff : (∀ d ∈ senders, 1 ≤ u d n) ↔ ∀ d ∈ senders, d ∈ since n (selections h') := by
    refine forall_congr' fun d => imp_congr_right fun hdd => ?_
    rw [ui.diff d n (hd d hdd).2]
    exact List.count_pos_iff
  constructor
  · rintro ⟨c', h1, h2⟩
    rw [hcs] at h1; injection h1 with h1; subst h1
    unfold Evaluates at h2
    rw [hev] at h2
    simp only [Except.ok.injEq] at h2
    rw [← h2, decide_eq_true_eq, hiff]
  · intro h1
    refine ⟨c, hcs, ?_⟩
    unfold Evaluates
    rw [hev]
    simp only [Except.ok.injEq]
    cases x with
    | true => simp only [decide_eq_true_eq]; rw [hiff]; exact h1.1 rfl
    | false =>
      simp only [decide_eq_false_iff_not]; rw [hiff]
      intro hx; exact absurd (h1.2 hx) (by simp)

/-- A scheduler for the graph 0 → 1, in which node 0 has the condition `Never()`. -/
def idleSender : Whole Nat Nat Unit :=
  ((Whole.new [(1, [0])] .standard none 1 demoWorld noOwners (fun _ => none)).addCondition 0
    (.basic (.leaf 0 .never))).1

/-- Remove the edge from 0 (the owner is node 1). -/
def dropEdge : AnyCond Nat Nat Unit := .structural ((GSC.removeEdgeFrom 0).toSCond (fun _ => []) 0)

/-- Runs for one pass. -/
def onePass : RunArgs Nat Nat Unit :=
  { id := none, esu := .leaf 10 (.afterNPasses 1 .environment_state_update)
    seq := .leaf 11 .never }

/-- What a run of the scheduler yields, whether it returned, and the scheduler afterwards. -/
def wholeRun (w : Whole Nat Nat Unit) (a : RunArgs Nat Nat Unit) (k : Nat) :
    Option (List (List Nat) × Bool × Whole Nat Nat Unit) :=
  match w.sys with
  | .error _ => none
  | .ok s => match exec s a k with
    | none => none
    | some (_, h, s', pc) => some (yields h, decide (pc = .returned), w.after s')

/-- The scheduler after one run and the removal of the edge. -/
def cutAfterRun : Whole Nat Nat Unit :=
  match wholeRun idleSender onePass 40 with
  | none => idleSender
  | some (_, _, w) => (w.addCondition 1 dropEdge).1

/-- C54 as stated is false.  If the edge 0 → 1 is removed before the first run, node 1 has
no sender and executes.  If it is removed after a run, the graph is the same, but node 1
still waits for node 0 and does not execute. -/
theorem C54_stale :
    (idleSender.addCondition 1 dropEdge).1.stack.readGraph.2 = .ok [(0, []), (1, [])] ∧
    (wholeRun (idleSender.addCondition 1 dropEdge).1 onePass 40).map (fun r => (r.1, r.2.1)) =
      some ([[1]], true) ∧
    (wholeRun idleSender onePass 40).map (fun r => (r.1, r.2.1)) = some ([[]], true) ∧
    cutAfterRun.stack.readGraph.2 = .ok [(0, []), (1, [])] ∧
    (wholeRun cutAfterRun onePass 40).map (fun r => (r.1, r.2.1)) = some ([[]], true) := by
  decide +kernel

/-- The hypotheses of `C54_first_run_partial` are met by a run on a graph that was changed
before. -/
def changedWhole : Whole Nat Nat Unit :=
  { stack := afterOps freshStack someOps, rest := Sys.new threeNodes .standard none 1 demoWorld }

/-- What its runs see. -/
def changedSys : Sys Nat Nat Unit :=
  { changedWhole.rest with
    graph := [(0, []), (1, [0]), (2, [1])], queue := [[0], [1], [2]],
    conds := changedWhole.stack.cset.basic, store := changedWhole.stack.cset.store }

example : ∃ h s pc, Quiet freshStack someOps changedWhole.stack ∧
    OneOwner (someOps.flatMap SchedOp.adds) ∧
    composed threeNodes (present someOps) = .ok [(0, []), (1, [0]), (2, [1])] ∧
    changedWhole.sys = .ok changedSys ∧
    Reach (fun _ _ => False) demoArgs changedSys false h s pc ∧ yields h = [[0], [1], [2]] ∧
    2 ∈ changedWhole.rest.nodes ∧ Dict.get? changedWhole.stack.cset.basic 2 = none := by
  refine ⟨_, _, _, someOps_quiet, someOps_oneOwner, by decide, ?_,
    run_reach (by decide) _ 30, by decide +kernel, by decide, by decide⟩
  have h1 : changedWhole.stack.readGraph.2 = .ok [(0, []), (1, [0]), (2, [1])] := by decide
  have h2 : changedWhole.stack.readQueue.2 = .ok [[0], [1], [2]] := by decide
  simp only [Whole.sys, h1, h2]
  rfl

theorem gap_graph (n : α) (s : Sys α κ W) (g : Graph α) (q : List (List α)) :
    Gap n s { s with graph := g, queue := q } := ⟨rfl, rfl, .refl _⟩

/-- The hypotheses of `C54_frozen` are met: after a complete run, node 1 loses its
sender. -/
def demoCut : Sys Nat Nat Unit :=
  { (demoAfter 40).2.1 with graph := [(0, []), (1, []), (2, [0])], queue := [[0, 1], [2]] }

example : ∃ h' s' pc', Dict.get? demo.conds 1 = none ∧ Dict.get? demo.graph 1 = some [0] ∧
    Gap 1 (demoAfter 40).2.1 demoCut ∧
    Reach (fun _ _ => False) demoArgs demoCut false h' s' pc' ∧ yields h' ≠ [] :=
  ⟨_, _, _, by decide, by decide, gap_graph _ _ _ _, run_reach (by decide +kernel) _ 30,
    by decide +kernel⟩

end GS.Props
