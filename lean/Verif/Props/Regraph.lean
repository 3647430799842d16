import Verif.Regraph
import Verif.Props.WarnGraph
import Verif.Cut
import Verif.Adopt
import Verif.RunDefault
import Verif.Props.Part
/-!
# C86: the warning of exact-time mode

Specification: `Verif/Spec/Regraph.lean`, `Verif/Spec/Structural.lean`.
-/

set_option linter.unusedSectionVars false

namespace GS.Props
open Spec
variable {α κ W : Type _} [DecidableEq α] [DecidableEq κ]

/-- C86: when there is the warning that structural conditions have no effect.  After any
additions, removals and reads in which nothing raised, a run gives this warning exactly if the
scheduler is in exact-time mode and some structural condition is present. -/
theorem C86_exact_when (mode : Mode) (base : Graph α) (st : Store α κ) (ow : OId → Option α)
    (ops : List (SchedOp α κ W)) (s : Stack α κ W) (rest : Sys α κ W)
    (hq : Spec.Quiet (Stack.new mode base st ow) ops s) (h1 : OneOwner (ops.flatMap SchedOp.adds)) :
    (Whole.runWarnings ⟨s, rest⟩ = [.exactTime] ↔ mode = .exactTime ∧ present ops ≠ []) ∧
    (Whole.runWarnings ⟨s, rest⟩ = [] ↔ mode = .standard ∨ present ops = []) := by
  obtain ⟨ls, h⟩ := (SInv.new base mode st ow _).quiet h1
    (fun op hop e he => List.mem_flatMap.mpr ⟨op, hop, he⟩) hq
  have h : SInv base mode _ (present ops) ls s := h
  have hm := h.mode
  have key : 0 < s.cset.structural.length ↔ present ops ≠ [] := by
    constructor
    · intro hl he
      cases hs : s.cset.structural with
      | nil => rw [hs] at hl; simp at hl
      | cons p ps =>
        have := h.cset.structural p.1
        rw [he, hs] at this
        simp [Dict.get?] at this
    · intro he
      cases hp : present ops with
      | nil => exact absurd hp he
      | cons e es =>
        have := h.cset.structural e.1
        rw [hp] at this
        cases hs : s.cset.structural with
        | nil => rw [hs] at this; simp [Dict.get?] at this
        | cons p ps => simp
  unfold Whole.runWarnings
  simp only
  rw [hm]
  cases mode with
  | standard => simp
  | exactTime =>
    by_cases hp : present ops = []
    · have : ¬ 0 < s.cset.structural.length := fun x => key.mp x hp
      simp [hp, this]
    · have := key.mpr hp
      simp [hp, this]

/-- An edge is added and removed again. -/
def edgeOps : List (SchedOp Nat Nat Unit) :=
  [.add 0 (.structural (addSenderTo 1 1)), .remove (.structural (addSenderTo 1 1)), .graph]

example : Spec.Quiet (Stack.new .exactTime threeNodes noOwners (fun _ => none)) (edgeOps.take 1)
      (afterOps (Stack.new .exactTime threeNodes noOwners (fun _ => none)) (edgeOps.take 1)) ∧
    Spec.Quiet (Stack.new .exactTime threeNodes noOwners (fun _ => none)) edgeOps
      (afterOps (Stack.new .exactTime threeNodes noOwners (fun _ => none)) edgeOps) ∧
    OneOwner (edgeOps.flatMap SchedOp.adds) ∧
    present (edgeOps.take 1) ≠ [] ∧ present edgeOps = [] := by
  refine ⟨quiet_of _ _ (by decide), quiet_of _ _ (by decide), ?_, by simp [present, edgeOps, SchedOp.effect, SchedOp.adds, structEntries], rfl⟩
  intro e he f hf h
  simp only [edgeOps, List.flatMap_cons, List.flatMap_nil, SchedOp.adds, structEntries,
    List.append_nil, List.nil_append, List.cons_append, List.mem_cons, List.not_mem_nil,
    or_false] at he hf
  rw [he, hf]

/-- Runs of a scheduler with another graph. -/
theorem scripted_withGraph {w : List (List α) → World α κ W} {a : RunArgs α κ W} {abs : Bool}
    {s0 s : Sys α κ W} {g : Graph α} {q : List (List α)} {h : History α κ W} {pc : PC α}
    (hn : ∀ n ∈ s0.nodes, Dict.get? s0.conds n ≠ none) (hb : AllBlind a s0) (hq : toposort g = .ok q)
    (hr : Scripted w a s0 abs h s pc) :
    s.conds = s0.conds ∧
    ∃ h', Scripted w a (withGraph g s0) abs h' (withGraph g s) pc ∧ h'.map Entry.ev = h.map Entry.ev := by
  induction hr with
  | @start s hs =>
    have st := Sys.start_ok hs
    obtain ⟨q0, hq0⟩ := st.topo
    refine ⟨?_, [], .start ?_, rfl⟩
    · obtain ⟨s1, h1, h2, _⟩ := st.conds
      unfold Sys.validateRunState at h1
      rw [hq0] at h1
      simp only at h1
      rw [validate_given _ _ hn] at h1
      rw [h2]; cases h1; rfl
    · rw [start_withGraph hn hq0 hq, hs]
  | @step h s s' pc pc' ev hr hs ih =>
    obtain ⟨hc, h', hr', he⟩ := ih
    have hc' : (resumed w (yields h) s pc).conds = s0.conds := by
      unfold resumed; split <;> exact hc
    have hb' : AllBlind a (resumed w (yields h) s pc) := ⟨by rw [hc']; exact hb.1, hb.2⟩
    have hy : yields h' = yields h := by rw [yields_events, yields_events, he]
    refine ⟨by rw [(Sys.step_stepR hs).frame.conds, hc'], _, .step hr' (ev := ev) (s' := withGraph g s') (pc' := pc') ?_, ?_⟩
    · rw [hy, resumed_withGraph, step_withGraph hb', hs]
    · rw [List.map_append, List.map_append, he, List.map_map, List.map_map]; rfl

theorem handle_mode (s : Stack α κ W) : s.handle.1.mode = s.mode := by
  have pop : ∀ (k : Nat) (s : Stack α κ W), (Stack.popN k s).1.mode = s.mode := by
    intro k; induction k with
    | zero => intro s; rfl
    | succ k ih =>
      intro s
      unfold Stack.popN
      split
      · rfl
      · rw [ih]
  have push : ∀ (cs : List (SCond α)) (s : Stack α κ W) (g : Graph α), (s.pushAll g cs).1.mode = s.mode := by
    intro cs; induction cs with
    | nil => intro s g; rfl
    | cons c cs ih =>
      intro s g
      unfold Stack.pushAll
      split
      · rfl
      · rw [ih]; rfl
  unfold Stack.handle
  simp only
  split
  · rfl
  · have h1 := pop (numPops s.last (commonWith s.last (s.cset.order.map (·.o)))) s
    split
    · next s1 e he => rw [he] at h1; exact h1
    · next s1 he =>
      rw [he] at h1
      split
      · exact h1
      · next g gs _ =>
        have h2 := push (s.cset.order.drop (commonWith s.last (s.cset.order.map (·.o)))) s1 g
        split
        · next s2 e he2 => rw [he2] at h2; exact h2.trans h1
        · next s2 he2 => rw [he2] at h2; exact h2.trans h1

/-- What a run sees of a scheduler in exact-time mode. -/
theorem sys_exact {w : Whole α κ W} {s : Sys α κ W} (he : w.stack.mode = .exactTime) (hw : w.sys = .ok s) :
    s = { w.rest with
      graph := s.graph, queue := [Dict.keys s.graph], conds := w.stack.cset.basic, store := w.stack.cset.store } := by
  unfold Whole.sys at hw
  cases hh : w.stack.handle with
  | mk t r =>
    cases r with
    | some e => simp only [Stack.readGraph, hh] at hw; cases hw
    | none =>
      have hl := Stack.handle_last hh
      have ht : t.handle = (t, none) := Stack.handle_noop (by rw [hl.1, hl.2])
      have hm : t.mode = .exactTime := by rw [← he]; have := handle_mode w.stack; rw [hh] at this; exact this
      simp only [Stack.readGraph, Stack.readQueue, hh, ht, hm] at hw
      cases hg : t.graphs with
      | nil => rw [hg] at hw; simp [orIndexError] at hw
      | cons g gs =>
        rw [hg] at hw
        simp only [List.head?_cons, orIndexError] at hw
        cases hw; rfl

/-- C86, what holds of "in exact time mode, graph structure conditions will have no effect":
the addition of a structural condition that keeps the nodes (and makes no cycle) changes
nothing in any run, whatever its consumer does, provided that each node has a condition of its
own (the default conditions come from the modified graph: `C86_exact_effect`) and that no user
function looks at the graph.  The two runs take the same steps with the same events, and then
all counts, clocks and condition objects are the same: only the graph differs. -/
theorem C86_exact_partial {w w' : Whole α κ W} {s s' : Sys α κ W} {n : α} {c : SCond α} {q : List (List α)}
    {a : RunArgs α κ W} {v : List (List α) → World α κ W} {abs : Bool} {h : History α κ W} {t : Sys α κ W} {pc : PC α}
    (he : w.stack.mode = .exactTime) (hw : w.sys = .ok s)
    (hadd : w.addCondition n (.structural c) = (w', none)) (hw' : w'.sys = .ok s')
    (hk : Dict.keys s'.graph = Dict.keys s.graph) (hq : toposort s'.graph = .ok q)
    (hn : ∀ m ∈ s.nodes, Dict.get? s.conds m ≠ none) (hb : AllBlind a s)
    (hr : Scripted v a s abs h t pc) :
    ∃ h' t', Scripted v a s' abs h' t' pc ∧ h'.map Entry.ev = h.map Entry.ev ∧
      t' = withGraph s'.graph t := by
  have hm : w'.stack.mode = .exactTime ∧ w'.rest = w.rest ∧ w'.stack.cset.basic = w.stack.cset.basic ∧
      w'.stack.cset.store = w.stack.cset.store := by
    unfold Whole.addCondition at hadd
    simp only [Prod.mk.injEq] at hadd
    obtain ⟨h1, h2⟩ := hadd
    subst h1
    simp only
    unfold Stack.addCondition at h2 ⊢
    simp only [CSet.add, CSet.addStructural] at h2 ⊢
    by_cases hx : n ∈ c.nodes
    · simp [hx] at h2
    · simp only [hx, if_false]
      rw [handle_mode, Stack.handle_cset]
      exact ⟨he, trivial, rfl, rfl⟩
  obtain ⟨m1, m2, m3, m4⟩ := hm
  have e1 := sys_exact he hw
  have e2 := sys_exact m1 hw'
  have e : s' = withGraph s'.graph s := by
    rw [e2]
    generalize s'.graph = g at *
    rw [e1]
    simp only [withGraph, m2, m3, m4, hk]
  obtain ⟨_, h', k1, k2⟩ := scripted_withGraph (g := s'.graph) hn hb hq hr
  exact ⟨h', _, e ▸ k1, k2, rfl⟩

/-- Nodes 0 and 1, both with a condition, in exact-time mode. -/
def exactBoth : Whole Nat Nat Unit :=
  (exactTwo.addCondition 1 (.basic (.leaf 1 .always))).1

/-- The schedulers of the runs. -/
def exactSys (w : Whole Nat Nat Unit) : Sys Nat Nat Unit :=
  match w.sys with
  | .ok s => s
  | .error _ => w.rest

/-- The hypotheses of `C86_exact_partial` hold for the edge 0 → 1, which node 1 does not wait
for: node 1 is executed in every pass, and 0 in every other pass, with the edge and without. -/
example : ∃ w' s s' q h t pc, exactBoth.stack.mode = .exactTime ∧ exactBoth.sys = .ok s ∧
    exactBoth.addCondition 0 exactEdge = (w', none) ∧ w'.sys = .ok s' ∧
    Dict.keys s'.graph = Dict.keys s.graph ∧ toposort s'.graph = .ok q ∧ s'.graph ≠ s.graph ∧
    (∀ m ∈ s.nodes, Dict.get? s.conds m ≠ none) ∧ AllBlind exactPasses s ∧
    Scripted (fun _ => demoWorld) exactPasses s false h t pc ∧ yields h = [[0, 1], [1], [0, 1]] ∧ pc = .returned := by
  refine ⟨(exactBoth.addCondition 0 exactEdge).1, exactSys exactBoth,
    exactSys (exactBoth.addCondition 0 exactEdge).1, [[0], [1]],
    (scriptAfter (fun _ => demoWorld) exactPasses (exactSys exactBoth) 60).1,
    (scriptAfter (fun _ => demoWorld) exactPasses (exactSys exactBoth) 60).2.1,
    (scriptAfter (fun _ => demoWorld) exactPasses (exactSys exactBoth) 60).2.2,
    rfl, rfl, rfl, rfl, by decide +kernel, by decide +kernel, by decide +kernel, by decide +kernel, ⟨?_, trivial, trivial⟩, ?_, by decide +kernel, by decide +kernel⟩
  · intro n c hc
    have hc : Dict.get? (exactSys exactBoth).conds n = some c := hc
    have e : (exactSys exactBoth).conds = [(0, .leaf 0 (.everyNPasses 2 .environment_state_update)), (1, .leaf 1 .always)] := rfl
    rw [e] at hc
    simp only [Dict.get?] at hc
    repeat' split at hc
    all_goals first | (cases hc; done) | (cases hc; trivial)
  · exact scriptAfter_scripted (by rfl) 60

end GS.Props
