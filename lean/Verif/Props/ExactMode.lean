import Verif.ExactMode
import Verif.Props.Demo
import Verif.Cut
/-!
# C122: exact-time mode is standard mode without the edges

Specification: `Verif/Spec/ExactMode.lean`.
-/

set_option linter.unusedSectionVars false

namespace GS.Props
open Spec
variable {α κ W : Type _} [DecidableEq α] [DecidableEq κ]
variable {s t s0 : Sys α κ W} {a : RunArgs α κ W} {abs : Bool} {g : Graph α}
variable {w : List (List α) → World α κ W} {h : History α κ W} {pc : PC α}

/-- The scheduler that the constructor makes in exact-time mode differs from the one it makes
in standard mode for the graph without edges in the mode and the graph only.  (Adding
conditions changes neither.) -/
theorem C122_new (hg : g ≠ []) (id : Option κ) (u : Rat) (x : World α κ W) :
    Sys.new (edgeless (baseGraph g)) .standard id u x =
      inStandard (edgeless (baseGraph g)) (Sys.new g .exactTime id u x) := by
  have hb : baseGraph g ≠ [] := by
    intro h
    cases g with
    | nil => exact hg rfl
    | cons p l =>
      have hk : ∀ (e d : Graph α) (n : α), (n ∈ Dict.keys d ∨ n ∈ Dict.keys e) →
          n ∈ Dict.keys (Dict.update d e) := by
        intro e
        induction e with
        | nil => intro d n hn; simpa [Dict.update] using hn
        | cons q e ih =>
          intro d n hn
          show n ∈ Dict.keys (Dict.update (Dict.set d q.1 q.2) e)
          apply ih
          rcases hn with hn | hn
          · exact .inl (Dict.mem_keys_set.mpr (.inr hn))
          · rcases List.mem_cons.mp (show n ∈ q.1 :: Dict.keys e from hn) with rfl | hn
            · exact .inl (Dict.mem_keys_set.mpr (.inl rfl))
            · exact .inr hn
      have : p.1 ∈ Dict.keys (baseGraph (p :: l)) := hk _ _ _ (.inr (List.mem_cons_self (a := p.1) (l := Dict.keys l)))
      rw [h] at this
      cases this
  have e1 := baseGraph_edgeless (baseGraph_wf g)
  unfold Sys.new inStandard
  simp only [e1, edgeless_keys]
  unfold queueOf
  rw [toposort_edgeless hb]

/-- The two schedulers start a run in the same way. -/
theorem start_exact {q : List (List α)} (hm : s0.mode = .exactTime) (hq : s0.queue = [Dict.keys s0.graph])
    (hg : s0.graph ≠ []) (ht : toposort s0.graph = .ok q)
    (hn : ∀ n ∈ s0.nodes, Dict.get? s0.conds n ≠ none) (hf : NoFiner a s0) :
    (inStandard (edgeless s0.graph) s0).start a =
      (inStandard (edgeless s0.graph) (s0.start a).1, (s0.start a).2) :=
  start_inStandard hn ht (toposort_edgeless hg) (unit_inStandard hm (by rw [hq]; rfl) hf)

theorem start_kept {s1 : Sys α κ W} (hn : ∀ n ∈ s0.nodes, Dict.get? s0.conds n ≠ none)
    (hs : s0.start a = (s1, .ok abs)) : s1.conds = s0.conds ∧ s1.queue = s0.queue := by
  have st := Sys.start_ok hs
  obtain ⟨q0, hq0⟩ := st.topo
  refine ⟨?_, st.queue⟩
  obtain ⟨s1, h1, h2, _⟩ := st.conds
  unfold Sys.validateRunState at h1
  rw [hq0] at h1
  simp only at h1
  rw [validate_given _ _ hn] at h1
  rw [h2]; cases h1; rfl

/-- **C122**: a run in exact-time mode goes like a run in standard mode of the graph without its
edges, and ends in the same state, provided that every node has a condition of its own and
that the times named by conditions do not make the interval between two sets smaller. -/
theorem C122 (hm : s0.mode = .exactTime) (hq : s0.queue = [Dict.keys s0.graph]) (hg : s0.graph ≠ [])
    (hn : ∀ n ∈ s0.nodes, Dict.get? s0.conds n ≠ none) (hu : AllUnmoded a s0) (hf : NoFiner a s0)
    (hr : Scripted w a s0 abs h s pc) :
    ∃ h', Scripted w a (inStandard (edgeless s0.graph) s0) abs h' (inStandard (edgeless s0.graph) s) pc ∧
      h'.map Entry.ev = h.map Entry.ev ∧ yields h' = yields h := by
  suffices x : (s.conds = s0.conds ∧ s.queue = s0.queue) ∧
      ∃ h', Scripted w a (inStandard (edgeless s0.graph) s0) abs h' (inStandard (edgeless s0.graph) s) pc ∧
      h'.map Entry.ev = h.map Entry.ev by
    obtain ⟨_, h', h1, h2⟩ := x
    exact ⟨h', h1, h2, by rw [yields_events, yields_events, h2]⟩
  induction hr with
  | @start s hs =>
    obtain ⟨q0, hq0⟩ := (Sys.start_ok hs).topo
    refine ⟨start_kept hn hs, [], .start ?_, rfl⟩
    rw [start_exact hm hq hg hq0 hn hf, hs]
  | @step h s s' pc pc' ev hr hs ih =>
    obtain ⟨⟨hc, hk⟩, h', hr', he⟩ := ih
    have hc' : (resumed w (yields h) s pc).conds = s0.conds := by
      unfold resumed; split <;> exact hc
    have hk' : (resumed w (yields h) s pc).queue = s0.queue := by
      unfold resumed; split <;> exact hk
    have hu' : AllUnmoded a (resumed w (yields h) s pc) := ⟨by rw [hc']; exact hu.1, hu.2⟩
    have hy : yields h' = yields h := by rw [yields_events, yields_events, he]
    have hl : (resumed w (yields h) s pc).queue.length = 1 := by rw [hk', hq]; rfl
    have f := (Sys.step_stepR hs).frame
    refine ⟨⟨by rw [f.conds, hc'], by rw [f.queue, hk']⟩, _,
      .step hr' (ev := ev) (s' := inStandard (edgeless s0.graph) s') (pc' := pc') ?_, ?_⟩
    · rw [hy, resumed_inStandard, step_inStandard hl hu', hs]
    · rw [List.map_append, List.map_append, he, List.map_map, List.map_map]; rfl

/-- **C122**, the other direction: every run in standard mode of the graph without edges is a
run in exact-time mode. -/
theorem C122_back {q : List (List α)} (hm : s0.mode = .exactTime) (hq : s0.queue = [Dict.keys s0.graph])
    (hg : s0.graph ≠ []) (hacyclic : toposort s0.graph = .ok q)
    (hn : ∀ n ∈ s0.nodes, Dict.get? s0.conds n ≠ none) (hu : AllUnmoded a s0) (hf : NoFiner a s0)
    (hr : Scripted w a (inStandard (edgeless s0.graph) s0) abs h t pc) :
    ∃ h' s, Scripted w a s0 abs h' s pc ∧ t = inStandard (edgeless s0.graph) s ∧
      h'.map Entry.ev = h.map Entry.ev ∧ yields h' = yields h := by
  suffices x : ∃ h' s, Scripted w a s0 abs h' s pc ∧ t = inStandard (edgeless s0.graph) s ∧
      h'.map Entry.ev = h.map Entry.ev ∧ s.conds = s0.conds ∧ s.queue = s0.queue by
    obtain ⟨h', s, h1, h2, h3, _⟩ := x
    exact ⟨h', s, h1, h2, h3, by rw [yields_events, yields_events, h3]⟩
  induction hr with
  | @start t hs =>
    rw [start_exact hm hq hg hacyclic hn hf] at hs
    have h1 : s0.start a = ((s0.start a).1, .ok abs) := Prod.ext rfl (Prod.mk.inj hs).2
    exact ⟨[], (s0.start a).1, .start h1, (Prod.mk.inj hs).1.symm, rfl, start_kept hn h1⟩
  | @step h t t' pc pc' ev hr hs ih =>
    obtain ⟨h', s, hr', rfl, he, hc, hk⟩ := ih
    have hc' : (resumed w (yields h) s pc).conds = s0.conds := by
      unfold resumed; split <;> exact hc
    have hk' : (resumed w (yields h) s pc).queue = s0.queue := by
      unfold resumed; split <;> exact hk
    have hu' : AllUnmoded a (resumed w (yields h) s pc) := ⟨by rw [hc']; exact hu.1, hu.2⟩
    have hy : yields h' = yields h := by rw [yields_events, yields_events, he]
    have hl : (resumed w (yields h) s pc).queue.length = 1 := by rw [hk', hq]; rfl
    rw [resumed_inStandard, step_inStandard hl hu'] at hs
    have h1 : (resumed w (yields h') s pc).step a abs pc =
        (((resumed w (yields h) s pc).step a abs pc).1, pc', ev) := by
      rw [hy]; exact Prod.ext rfl (Prod.mk.inj hs).2
    have f := (Sys.step_stepR h1).frame
    rw [hy] at f
    refine ⟨_, _, .step hr' h1, (Prod.mk.inj hs).1.symm, ?_, by rw [f.conds, hc'], by rw [f.queue, hk']⟩
    rw [List.map_append, List.map_append, he, List.map_map, List.map_map]; rfl

/-! ## Examples -/

/-- 1 has an edge from 0; `EveryNCalls(0, 2)` for 1, `Always()` for 0, in exact-time mode. -/
def unequal : Sys Nat Nat Unit :=
  ((Sys.new [(1, [0])] .exactTime none 1 demoWorld).alloc 2).addBasic 1 (.leaf 0 (.everyNCalls 0 2))
    |>.addBasic 0 (.leaf 1 .always)

theorem unequal_conds : unequal.conds = [(1, .leaf 0 (.everyNCalls 0 2)), (0, .leaf 1 .always)] := rfl

theorem unequal_unmoded : AllUnmoded demoArgs unequal := by
  refine ⟨fun n c hc => ?_, trivial, trivial⟩
  rw [unequal_conds] at hc
  simp only [Dict.get?] at hc
  split at hc
  · cases hc; trivial
  · split at hc
    · cases hc; trivial
    · cases hc

example : (runAfter unequal demoArgs 40).2.2 = .returned ∧
    yields (runAfter unequal demoArgs 40).1 =
      yields (runAfter (inStandard (edgeless unequal.graph) unequal) demoArgs 40).1 ∧
    yields (runAfter unequal demoArgs 40).1 ≠
      yields (runAfter (inStandard unequal.graph { unequal with queue := queueOf unequal.graph }) demoArgs 40).1 := by
  decide +kernel

theorem unequal_noFiner : NoFiner demoArgs unequal := by
  left
  rintro q ⟨c, hc, hm⟩
  have : c = .leaf 0 (.everyNCalls 0 2) ∨ c = .leaf 1 .always ∨ c = demoArgs.seq ∨ c = demoArgs.esu := by
    rcases hc with ⟨n, hn⟩ | h | h | h
    · rw [unequal_conds] at hn
      simp only [List.mem_cons, Prod.mk.injEq, List.not_mem_nil, or_false] at hn
      rcases hn with ⟨_, h⟩ | ⟨_, h⟩
      · exact .inl h
      · exact .inr (.inl h)
    · exact .inr (.inr (.inl h))
    · exact .inr (.inr (.inr h))
    · cases h
  rcases this with rfl | rfl | rfl | rfl <;> cases hm

example {w : List (List Nat) → World Nat Nat Unit} {h s pc} (hr : Scripted w demoArgs unequal false h s pc) :
    ∃ h', Scripted w demoArgs (inStandard (edgeless unequal.graph) unequal) false h'
        (inStandard (edgeless unequal.graph) s) pc ∧
      h'.map Entry.ev = h.map Entry.ev ∧ yields h' = yields h :=
  C122 rfl rfl (by decide) (by decide) unequal_unmoded unequal_noFiner hr

/-- Both nodes are governed by the clock: 0 every 2, 1 every 4, in exact-time mode. -/
def metronome : Sys Nat Nat Unit :=
  ((Sys.new [(1, [0])] .exactTime none 1 demoWorld).alloc 2).addBasic 1
    (.leaf 0 (.timeInterval (some ⟨4, 0⟩) none none true true))
    |>.addBasic 0 (.leaf 1 (.timeInterval (some ⟨2, 0⟩) none none true true))

/-- The run ends at time 8. -/
def metronomeArgs : RunArgs Nat Nat Unit :=
  { id := none, esu := .leaf 10 (.timeTermination ⟨8, 0⟩ true), seq := .leaf 11 .never }

theorem metronome_conds : metronome.conds = [(1, .leaf 0 (.timeInterval (some ⟨4, 0⟩) none none true true)),
    (0, .leaf 1 (.timeInterval (some ⟨2, 0⟩) none none true true))] := rfl

theorem metronome_unmoded : AllUnmoded metronomeArgs metronome := by
  refine ⟨fun n c hc => ?_, trivial, trivial⟩
  rw [metronome_conds] at hc
  simp only [Dict.get?] at hc
  split at hc
  · cases hc; trivial
  · split at hc
    · cases hc; trivial
    · cases hc

theorem metronome_noFiner : NoFiner metronomeArgs metronome := by
  right
  refine ⟨⟨⟨2, 0⟩, .leaf 1 (.timeInterval (some ⟨2, 0⟩) none none true true), .inl ⟨0, by rw [metronome_conds]; simp⟩,
    .leaf⟩, ?_⟩
  rintro q ⟨c, hc, hm⟩ g hg
  have : c = .leaf 0 (.timeInterval (some ⟨4, 0⟩) none none true true) ∨
      c = .leaf 1 (.timeInterval (some ⟨2, 0⟩) none none true true) ∨ c = metronomeArgs.seq ∨
      c = metronomeArgs.esu := by
    rcases hc with ⟨n, hn⟩ | h | h | h
    · rw [metronome_conds] at hn
      simp only [List.mem_cons, Prod.mk.injEq, List.not_mem_nil, or_false] at hn
      rcases hn with ⟨_, h⟩ | ⟨_, h⟩
      · exact .inl h
      · exact .inr (.inl h)
    · exact .inr (.inr (.inl h))
    · exact .inr (.inr (.inr h))
    · cases h
  rcases this with rfl | rfl | rfl | rfl
  · cases hm
  · cases hm
  · cases hm
  · cases hm
    obtain ⟨k, hk⟩ := hg.2.1 ⟨2, 0⟩ ⟨.leaf 1 (.timeInterval (some ⟨2, 0⟩) none none true true),
      .inl ⟨0, by rw [metronome_conds]; simp⟩, .leaf⟩
    have e1 : Qty.val ⟨2, 0⟩ = 2 := by decide +kernel
    have e2 : Qty.val ⟨8, 0⟩ = 8 := by decide +kernel
    rw [e1] at hk
    refine ⟨4 * k, ?_⟩
    rw [e2]
    have e3 : ((4 * k : Int) : Rat) = 4 * (k : Rat) := by rw [Rat.intCast_mul]; rfl
    rw [e3]
    grind

example : (runAfter metronome metronomeArgs 60).2.2 = .returned ∧
    yields (runAfter metronome metronomeArgs 60).1 = [[0, 1], [0], [0, 1], [0]] ∧
    yields (runAfter (inStandard (edgeless metronome.graph) metronome) metronomeArgs 60).1 =
      yields (runAfter metronome metronomeArgs 60).1 := by decide +kernel

example {w : List (List Nat) → World Nat Nat Unit} {h s pc} (hr : Scripted w metronomeArgs metronome true h s pc) :
    ∃ h', Scripted w metronomeArgs (inStandard (edgeless metronome.graph) metronome) true h'
        (inStandard (edgeless metronome.graph) s) pc ∧
      h'.map Entry.ev = h.map Entry.ev ∧ yields h' = yields h :=
  C122 rfl rfl (by decide) (by decide) metronome_unmoded metronome_noFiner hr

/-- The node 0 is to be executed every 2 from time 1 on. -/
def offbeat : Sys Nat Nat Unit :=
  ((Sys.new [(0, [])] .exactTime none 1 demoWorld).alloc 1).addBasic 0
    (.leaf 0 (.timeInterval (some ⟨2, 0⟩) (some ⟨1, 0⟩) none true true))

/-- The run ends at time 5. -/
def offbeatArgs : RunArgs Nat Nat Unit :=
  { id := none, esu := .leaf 10 (.timeTermination ⟨5, 0⟩ false), seq := .leaf 11 .never }

/-- **C122**, the exception: a start that is no multiple of the repeat intervals makes the interval
smaller in exact-time mode.  In standard mode the odd times are passed over, and the node is
never executed. -/
theorem C122_finer :
    (runAfter offbeat offbeatArgs 60).2.2 = .returned ∧
    (runAfter (inStandard (edgeless offbeat.graph) offbeat) offbeatArgs 60).2.2 = .returned ∧
    yields (runAfter offbeat offbeatArgs 60).1 = [[], [0], [], [0], [], [0]] ∧
    yields (runAfter (inStandard (edgeless offbeat.graph) offbeat) offbeatArgs 60).1 = [[], [], []] := by
  decide +kernel

end GS.Props
