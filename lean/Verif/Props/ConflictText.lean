import Verif.Props.GSC
import Verif.ConflictText
/-!
# C105: conflicting operations and nodes that are not texts

`isStr` says which nodes are texts (`str`). `modifyGraphText` is `modify_graph` with the
construction of the message about conflicts.
-/

set_option linter.unusedSectionVars false

namespace GS.Props
open Spec
variable {α : Type _} [DecidableEq α]
variable (isStr : α → Bool) (cyc : Graph α → List (List α)) {c : OpCond α} {owner : α} {s : HG α}

theorem modifyGraphText_eq {isStr : α → Bool} {cyc : Graph α → List (List α)} (hf : c.Fits owner s) :
    (GSC.reposition c).modifyGraphText isStr cyc owner s = c.modifyText isStr cyc owner s := by
  have hg : (GSC.reposition c).inGraph owner s = true := by
    simp only [GSC.inGraph, GSC.nodes, List.all_cons, Bool.and_eq_true, decide_eq_true_eq,
      List.all_eq_true]
    exact ⟨hf.ownerIn, hf.nodesIn⟩
  unfold GSC.modifyGraphText; rw [hg]; rfl

theorem inGraph_cases (hc : Constructible c owner) :
    c.Fits owner s ∨ (GSC.reposition c).inGraph owner s = false ∧
      (owner ∉ Dict.keys s.value ∨ ∃ n ∈ c.nodes, n ∉ Dict.keys s.value) := by
  rw [HG.keys_value]
  cases hg : (GSC.reposition c).inGraph owner s with
  | true =>
    simp only [GSC.inGraph, GSC.nodes, List.all_cons, Bool.and_eq_true, decide_eq_true_eq,
      List.all_eq_true] at hg
    exact .inl ⟨hg.1, hg.2, hc.apart⟩
  | false =>
    refine .inr ⟨rfl, Classical.byContradiction fun hn => ?_⟩
    simp only [not_or, Classical.not_not, not_exists, not_and] at hn
    have : (GSC.reposition c).inGraph owner s = true := by
      simp only [GSC.inGraph, GSC.nodes, List.all_cons, Bool.and_eq_true, decide_eq_true_eq,
        List.all_eq_true]
      exact hn
    rw [hg] at this
    cases this

/-- C105, whatever the nodes are: a graph is returned exactly as by `modifyGraph` (to which
C36-C42 refer), and where that raises, `ConditionError` or `TypeError` is raised. -/
theorem C105_graphs (hs : s.Ok) (hc : Constructible c owner) :
    (∀ t, (GSC.reposition c).modifyGraphText isStr cyc owner s = .ok t ↔
      (GSC.reposition c).modifyGraph cyc owner s = .ok t) ∧
    ∀ e, (GSC.reposition c).modifyGraphText isStr cyc owner s = .error e →
      (e = .conditionError ∨ e = .typeError) ∧
      (GSC.reposition c).modifyGraph cyc owner s = .error .conditionError := by
  rcases inGraph_cases (s := s) hc with hf | ⟨hg, _⟩
  · rw [modifyGraphText_eq hf, modifyGraph_eq hf]
    have hm : ∀ e, c.modify cyc owner s = .error e → e = .conditionError := by
      intro e h
      rcases OpCond.modify_cases cyc c owner hs hf with ⟨_, k⟩ | ⟨_, _, _, k⟩ | ⟨_, _, u, _, _, _, k, _⟩
      · rw [k] at h; cases h
      · rw [k] at h; cases h; rfl
      · rw [k] at h; cases h
    rcases (OpCond.modifyText_cases isStr cyc hs hf).1 with h | ⟨h, h'⟩
    · rw [h]
      exact ⟨fun t => Iff.rfl, fun e he => ⟨.inl (hm e he), by rw [he, hm e he]⟩⟩
    · rw [h, h']
      exact ⟨fun t => ⟨fun k => (by cases k), fun k => (by cases k)⟩,
        fun e he => ⟨.inr (by cases he; rfl), rfl⟩⟩
  · unfold GSC.modifyGraphText GSC.modifyGraph
    rw [hg]
    exact ⟨fun t => Iff.rfl, fun e he => by cases he; exact ⟨.inl rfl, rfl⟩⟩

/-- C105, for nodes that are texts: `ConditionError` exactly if the owner or a subject is not in
the graph, or if the condition is not met already, conflicts are not ignored and two
operations disagree; nothing else is raised. What is missing: nodes that are not texts
(`C105_unprintable`). -/
theorem C105_strings_partial (hs : s.Ok) (hc : Constructible c owner)
    (hi : ∀ n, isStr n = true) :
    ∃ g1, WithoutOwnerEdges c owner s.value g1 ∧
      ∀ e, (GSC.reposition c).modifyGraphText isStr cyc owner s = .error e ↔ e = .conditionError ∧
        ((owner ∉ Dict.keys s.value ∨ ∃ n ∈ c.nodes, n ∉ Dict.keys s.value) ∨
        (¬ AlreadyPlaced c owner s.value ∧ c.ignoreConflicts = false ∧ Disagree c owner g1)) := by
  obtain ⟨g1, h1, h2⟩ := C40_rejected cyc c owner s hs hc
  refine ⟨g1, h1, fun e => ?_⟩
  rw [← h2 e]
  rcases inGraph_cases (s := s) hc with hf | ⟨hg, _⟩
  · rw [modifyGraphText_eq hf, modifyGraph_eq hf, (OpCond.modifyText_cases isStr cyc hs hf).2.1 hi]
  · unfold GSC.modifyGraphText GSC.modifyGraph
    rw [hg]
    exact Iff.rfl

/-- C105 is false for nodes that are not texts: a disagreement is then never reported by a
`ConditionError`. Exactly where texts would give `ConditionError` because of a disagreement,
`TypeError` is raised. -/
theorem C105_unprintable (hs : s.Ok) (hc : Constructible c owner)
    (hi : ∀ n, isStr n = false) :
    ∃ g1, WithoutOwnerEdges c owner s.value g1 ∧
      ∀ e, (GSC.reposition c).modifyGraphText isStr cyc owner s = .error e ↔
        (e = .conditionError ∧
          (owner ∉ Dict.keys s.value ∨ ∃ n ∈ c.nodes, n ∉ Dict.keys s.value)) ∨
        (e = .typeError ∧ owner ∈ Dict.keys s.value ∧ (∀ n ∈ c.nodes, n ∈ Dict.keys s.value) ∧
          ¬ AlreadyPlaced c owner s.value ∧ c.ignoreConflicts = false ∧ Disagree c owner g1) := by
  obtain ⟨g1, h1, h2⟩ := C40_rejected cyc c owner s hs hc
  refine ⟨g1, h1, fun e => ?_⟩
  rcases inGraph_cases (s := s) hc with hf | ⟨hg, hn⟩
  · have hk : owner ∈ Dict.keys s.value ∧ ∀ n ∈ c.nodes, n ∈ Dict.keys s.value := by
      rw [HG.keys_value]; exact ⟨hf.ownerIn, hf.nodesIn⟩
    have no : ¬ (owner ∉ Dict.keys s.value ∨ ∃ n ∈ c.nodes, n ∉ Dict.keys s.value) := by
      rintro (h | ⟨n, h1, h2⟩)
      · exact h hk.1
      · exact h2 (hk.2 n h1)
    rw [modifyGraphText_eq hf]
    have h2' := h2 .conditionError
    rw [modifyGraph_eq hf] at h2'
    obtain ⟨ha, _, h3⟩ := OpCond.modifyText_cases isStr cyc hs hf
    by_cases hd : ¬ AlreadyPlaced c owner s.value ∧ c.ignoreConflicts = false ∧ Disagree c owner g1
    · rw [h3 hi (h2'.mpr ⟨rfl, .inr hd⟩)]
      exact ⟨fun h => (by cases h; exact .inr ⟨rfl, hk.1, hk.2, hd⟩),
        fun h => h.elim (fun h => absurd h.2 no) fun h => by rw [h.1]⟩
    · have hm : ∀ e, c.modify cyc owner s ≠ .error e := by
        intro e he
        have := (h2 e).mp (by rw [modifyGraph_eq hf]; exact he)
        exact this.2.elim no hd
      rcases ha with h | ⟨h, _⟩
      · rw [h]
        exact ⟨fun h => absurd h (hm e), fun h => h.elim (fun h => absurd h.2 no) fun h => absurd h.2.2.2 hd⟩
      · exact absurd h (hm _)
  · unfold GSC.modifyGraphText
    rw [hg]
    simp only [if_true]
    constructor
    · intro h; cases h; exact .inl ⟨rfl, hn⟩
    · rintro (⟨rfl, _⟩ | ⟨_, h1, h2, _⟩)
      · rfl
      · exact absurd hn (fun hn => hn.elim (fun h => h h1) fun ⟨n, h3, h4⟩ => h4 (h2 n h3))

/-- A conflict: `AfterNodes(1, 2)` for 3, where 2 is to lose its senders and 1 to keep its
receivers. -/
def gscQuarrel : OpCond Nat :=
  { gscOps with
    nodes := [1, 2]
    subjectReceivers := fun _ => .keep
    subjectSenders := fun n => if n = 2 then .discard else .keep }

/-- The outcome of `modify_graph` with the texts. -/
def textOutcome (isStr : Nat → Bool) (c : GSC Nat) (owner : Nat) (s : HG Nat) : Except Err (Graph Nat) :=
  match c.modifyGraphText isStr (fun _ => []) owner s with
  | .ok t => .ok t.value
  | .error e => .error e

/-- The same conflict with texts, with numbers, and with a graph some of whose nodes are texts:
then what is raised depends on the neighbours of the nodes in question. -/
theorem C105_depends : Constructible gscQuarrel 3 ∧
    textOutcome (fun _ => true) (.reposition gscQuarrel) 3 gscGraph = .error .conditionError ∧
    textOutcome (fun _ => false) (.reposition gscQuarrel) 3 gscGraph = .error .typeError ∧
    textOutcome (fun n => n != 3) (.reposition gscQuarrel) 3 gscGraph = .error .conditionError ∧
    textOutcome (fun n => n != 1) (.reposition gscQuarrel) 3 gscGraph = .error .typeError ∧
    textOutcome (fun _ => false) (.reposition { gscQuarrel with ignoreConflicts := true }) 3 gscGraph =
      outcome (.reposition { gscQuarrel with ignoreConflicts := true }) 3 gscGraph := by
  refine ⟨⟨by decide, fun h => by cases h⟩, ?_⟩
  decide +kernel

end GS.Props
