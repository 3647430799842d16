import Verif.GSCFacts
import Verif.GraphLemmas2
/-!
# C36-C42: the built-in structural conditions

`cyc` stands for `networkx.simple_cycles`; unless stated otherwise it may be any function.
An argument graph is a dict of set objects, possibly shared (`HG`); `s.value` is the graph
as a dependency dict.  `HG.Ok` says that it is a dict (no key twice) and that its sets are
existing objects.  `Constructible` says what the constructors and the owner check enforce.
-/

set_option linter.unusedSectionVars false

namespace GS.Props
open Spec Relation
variable {α : Type _} [DecidableEq α]
variable (cyc : Graph α → List (List α)) (c : OpCond α) (owner : α) (s : HG α)

theorem fits_of_ok {cyc : Graph α → List (List α)} {c : OpCond α} {owner : α} {s t : HG α}
    (hc : owner ∉ c.nodes)
    (h : (GSC.reposition c).modifyGraph cyc owner s = .ok t) :
    c.Fits owner s ∧ c.modify cyc owner s = .ok t := by
  unfold GSC.modifyGraph at h
  cases hg : (GSC.reposition c).inGraph owner s with
  | false => rw [hg] at h; simp at h
  | true =>
    rw [hg] at h
    simp only [Bool.true_eq_false, if_false] at h
    simp only [GSC.inGraph, GSC.nodes, List.all_cons, Bool.and_eq_true, decide_eq_true_eq,
      List.all_eq_true] at hg
    exact ⟨⟨hg.1, hg.2, hc⟩, h⟩

theorem modifyGraph_eq {cyc : Graph α → List (List α)} {c : OpCond α} {owner : α} {s : HG α}
    (hf : c.Fits owner s) : (GSC.reposition c).modifyGraph cyc owner s = c.modify cyc owner s := by
  have hg : (GSC.reposition c).inGraph owner s = true := by
    simp only [GSC.inGraph, GSC.nodes, List.all_cons, Bool.and_eq_true, decide_eq_true_eq,
      List.all_eq_true]
    exact ⟨hf.ownerIn, hf.nodesIn⟩
  unfold GSC.modifyGraph; rw [hg]; rfl

theorem valid_iff {c : OpCond α} {owner : α} {s : HG α} (hs : s.Ok) :
    (∀ n ∈ c.nodes, c.valid owner s.clone n = true) ↔ AlreadyPlaced c owner s.value := by
  unfold AlreadyPlaced
  refine forall_congr' fun n => imp_congr_right fun _ => ?_
  rw [OpCond.valid_clone hs]
  unfold OpCond.valid
  cases c.kind with
  | before => simp [HG.edge_value hs]
  | after => simp [HG.edge_value hs]
  | withNode =>
    simp only [Bool.and_eq_true, List.all_eq_true, decide_eq_true_eq, HG.edge_value hs]
    exact ⟨fun h x => ⟨h.1 x, h.2 x⟩, fun h => ⟨fun x => (h x).mp, fun x => (h x).mpr⟩⟩

theorem queue_at {g : Graph α} (hg : Dict.WF g) (hc : ¬ HasCycle g) (i : Nat) (n : α) :
    At (queueOf g) i n ↔ ChainTo g i n ∧ ¬ ChainTo g (i + 1) n := by
  rcases toposort_spec g hg with ⟨ls, h1, _, h3, _⟩ | ⟨_, h⟩
  · have e : queueOf g = ls := by unfold queueOf; rw [h1]
    rw [e, h3]
  · exact absurd h hc

theorem edge_earlier {g : Graph α} (hg : Dict.WF g) (hc : ¬ HasCycle g) {a b : α} (he : Edge g a b)
    (hne : a ≠ b) {i j : Nat} (hi : At (queueOf g) i a) (hj : At (queueOf g) j b) : i < j := by
  have a1 := (queue_at hg hc i a).mp hi
  have a2 := (queue_at hg hc j b).mp hj
  have hch : ChainTo g (i + 1) b := ⟨a, ⟨he, hne⟩, a1.1⟩
  apply Nat.lt_of_not_le
  intro hle
  exact a2.2 (chain_mono hch (by omega))

/-! ## C36 -/

/-- C36: the result has an edge from the owner to every subject, and if it is acyclic the
owner is considered strictly before each subject.  What is missing: the combination
`owner_senders=KEEP` and `subject_senders=REPLACE` for some subject, together with
`remove_new_self_referential_edges` or `prune_cycles`; `C36_edge_lost` shows that the claim
is then false. -/
theorem C36_before_partial (t : HG α) (hs : s.Ok) (hk : c.kind = .before) (hc : Constructible c owner)
    (ha : (c.ownerSenders ≠ .keep ∨ ∀ n ∈ c.nodes, c.subjectSenders n ≠ .replace) ∨
      (c.removeSelf = false ∧ c.prune = false))
    (h : (GSC.reposition c).modifyGraph cyc owner s = .ok t) :
    ∀ n ∈ c.nodes, Edge t.value owner n ∧ (¬ HasCycle t.value → ∀ i j,
      At (queueOf t.value) i owner → At (queueOf t.value) j n → i < j) := by
  obtain ⟨hf, h⟩ := fits_of_ok hc.apart h
  have hF := OpCond.modify_frame cyc c owner hs hf h
  have ha' : ¬ c.Aliased ∨ (c.removeSelf = false ∧ c.prune = false) := by
    refine ha.imp (fun ha => ?_) id
    rintro ⟨h1, n, h2, h3⟩
    exact ha.elim (fun e => e h1) (fun e => e n h2 h3)
  intro n hn
  have he : Edge t.value owner n := (HG.edge_value hF.ok _ _).mpr (OpCond.before_edge hs hf hk ha' h n hn)
  exact ⟨he, fun hcyc i j hi hj => edge_earlier (HG.wf_value hF.ok) hcyc he
    (fun e => hc.apart (e ▸ hn)) hi hj⟩

/-- C36, C37, C38: if the owner already is in place for all subjects, the result is the
argument, whatever the options. -/
theorem C36_unchanged (hs : s.Ok) (hin : owner ∈ Dict.keys s.graph) (hn : ∀ n ∈ c.nodes, n ∈ Dict.keys s.graph)
    (hc : Constructible c owner) (hv : AlreadyPlaced c owner s.value) :
    ∃ t, (GSC.reposition c).modifyGraph cyc owner s = .ok t ∧ t.value = s.value := by
  have hf : c.Fits owner s := ⟨hin, hn, hc.apart⟩
  rw [modifyGraph_eq hf]
  rcases OpCond.modify_cases cyc c owner hs hf with ⟨_, e⟩ | ⟨h, _⟩ | ⟨h, _⟩
  · exact ⟨_, e, HG.clone_value hs⟩
  · exact absurd ((valid_iff hs).mpr hv) h
  · exact absurd ((valid_iff hs).mpr hv) h

/-- A graph: 0 → 1 → 2 and 0 → 3. -/
def gscGraph : HG Nat := HG.load [(0, []), (1, [0]), (2, [1]), (3, [0])]

/-- `BeforeNodes(1)` with the default options. -/
def gscBefore : OpCond Nat :=
  { kind := .before, nodes := [1], ownerSenders := .merge, ownerReceivers := .keep,
    subjectSenders := fun _ => .keep, subjectReceivers := fun _ => .keep }

/-- `BeforeNodes(1, owner_senders=KEEP, subject_senders=REPLACE)`. -/
def gscAliased : OpCond Nat := { gscBefore with ownerSenders := .keep, subjectSenders := fun _ => .replace }

/-- What a condition makes of a graph, as a dependency dict. -/
def outcome (c : GSC Nat) (owner : Nat) (s : HG Nat) : Except Err (Graph Nat) :=
  match c.modifyGraph (fun _ => []) owner s with
  | .ok t => .ok t.value
  | .error e => .error e

example : gscGraph.value = [(0, []), (1, [0]), (2, [1]), (3, [0])] ∧
    outcome (.reposition gscBefore) 3 gscGraph = .ok [(0, []), (1, [0, 3]), (2, [1]), (3, [0])] ∧
    queueOf [(0, []), (1, [0, 3]), (2, [1]), (3, [0])] = [[0], [3], [1], [2]] := by decide +kernel

example : Constructible gscBefore 3 := ⟨by decide, fun h => by cases h⟩

theorem gscGraph_ok : gscGraph.Ok := HG.load_ok (by decide)

/-- A simple cycle is a cycle. -/
theorem cyclic_of_simple {g : Graph α} {cy : List α} (h : SimpleCycle g cy) : Cyclic g := by
  obtain ⟨h0, _, h2⟩ := h
  have hpos : 0 < cy.length := List.length_pos_iff.mpr h0
  have walk : ∀ k, TransGen (Edge g) (cy[0]'hpos) (cy[(k + 1) % cy.length]'(Nat.mod_lt _ hpos)) := by
    intro k
    induction k with
    | zero =>
      exact .single (h2 0 _ _ (List.getElem?_eq_getElem hpos) (List.getElem?_eq_getElem _))
    | succ k ih =>
      refine ih.tail (h2 ((k + 1) % cy.length) _ _ (List.getElem?_eq_getElem _) ?_)
      rw [Nat.mod_add_mod]
      exact List.getElem?_eq_getElem _
  have := walk (cy.length - 1)
  have e : (cy.length - 1 + 1) % cy.length = 0 := by
    rw [Nat.sub_add_cancel hpos, Nat.mod_self]
  simp only [e] at this
  exact ⟨_, this⟩

/-- A graph whose edges go from smaller to larger numbers has no simple cycle. -/
theorem no_cycle_of_lt {g : Graph Nat} (h : ∀ p ∈ g, ∀ x ∈ p.2, x < p.1) : ¬ Cyclic g := by
  have key : ∀ a b, TransGen (Edge g) a b → a < b := by
    intro a b t
    have e1 : ∀ a b, Edge g a b → a < b := by
      rintro a b ⟨p, hp, rfl, hx⟩
      exact h p hp a hx
    induction t with
    | single e => exact e1 _ _ e
    | tail _ e ih => exact Nat.lt_trans ih (e1 _ _ e)
  rintro ⟨n, hn⟩
  exact Nat.lt_irrefl _ (key n n hn)

theorem cyc_nil {cyc : Graph α → List (List α)} (hl : ListsCycles cyc) {g : Graph α} (h : ¬ Cyclic g) :
    cyc g = [] := by
  cases e : cyc g with
  | nil => rfl
  | cons cy l => exact absurd (cyclic_of_simple ((hl g).1 cy (by rw [e]; exact List.mem_cons_self))) h

/-- C36 as stated is false: with `owner_senders=KEEP` and `subject_senders=REPLACE` the
owner and the subject get the same set object, and the removal of the owner's "new
self-edge" removes the edge from the owner to the subject.  No conflict is reported, and
the result is acyclic, for every correct enumeration of cycles. -/
theorem C36_edge_lost (cyc : Graph Nat → List (List Nat)) (hl : ListsCycles cyc) :
    Constructible gscAliased 3 ∧ gscAliased.kind = .before ∧
    ∃ t, (GSC.reposition gscAliased).modifyGraph cyc 3 gscGraph = .ok t ∧
      ¬ Edge t.value 3 1 ∧ ¬ Cyclic t.value := by
  have hc : Constructible gscAliased 3 := ⟨by decide, fun h => by cases h⟩
  refine ⟨hc, rfl, ?_⟩
  have hf : gscAliased.Fits 3 gscGraph := ⟨by decide, by decide, hc.apart⟩
  rw [modifyGraph_eq hf]
  rcases OpCond.modify_cases cyc gscAliased 3 gscGraph_ok hf with ⟨h, _⟩ | ⟨_, _, h, _⟩ | ⟨_, _, u, _, _, h, e, _⟩
  · exact absurd h (by decide +kernel)
  · exact absurd h (by decide +kernel)
  · have hv : (gscAliased.selfCut gscGraph.value (gscAliased.placed 3 gscGraph)).value =
        [(0, []), (1, [0]), (2, [1]), (3, [0])] := by decide +kernel
    have hu := h (by rw [hv]; exact cyc_nil hl (no_cycle_of_lt (by decide)))
    have hr : (gscAliased.reconnectAll 3 gscGraph.value
        (gscAliased.selfCut gscGraph.value (gscAliased.placed 3 gscGraph))).value =
        [(0, []), (1, [0]), (2, [1]), (3, [0])] := by decide +kernel
    refine ⟨_, e, ?_, ?_⟩
    · rw [hu, hr]
      rintro ⟨p, hp, h⟩
      revert p
      decide
    · rw [hu, hr]; exact no_cycle_of_lt (by decide)

/-! ## C37 -/

/-- C37: the result has an edge from every subject to the owner, and if it is acyclic the
owner is considered strictly after each subject, for all options. -/
theorem C37_after (t : HG α) (hs : s.Ok) (hk : c.kind = .after) (hc : Constructible c owner)
    (h : (GSC.reposition c).modifyGraph cyc owner s = .ok t) :
    ∀ n ∈ c.nodes, Edge t.value n owner ∧ (¬ HasCycle t.value → ∀ i j,
      At (queueOf t.value) i n → At (queueOf t.value) j owner → i < j) := by
  obtain ⟨hf, h⟩ := fits_of_ok hc.apart h
  have hF := OpCond.modify_frame cyc c owner hs hf h
  intro n hn
  have he : Edge t.value n owner := (HG.edge_value hF.ok _ _).mpr (OpCond.after_edge hs hf hk h n hn)
  exact ⟨he, fun hcyc i j hi hj => edge_earlier (HG.wf_value hF.ok) hcyc he
    (fun e => hc.apart (e ▸ hn)) hi hj⟩

/-- `AfterNodes(2, 3)` with the default options. -/
def gscAfter : OpCond Nat :=
  { kind := .after, nodes := [2, 3], ownerSenders := .keep, ownerReceivers := .merge,
    subjectSenders := fun _ => .merge, subjectReceivers := fun _ => .keep }

/-- The simple cycles of 1 → 2 → 1 and 1 → 3 → 1, where they exist. -/
def someCycles (g : Graph Nat) : List (List Nat) :=
  [[1, 2], [1, 3]].filter fun l => match l with
    | [a, b] => decide (a ∈ Dict.getD g b) && decide (b ∈ Dict.getD g a)
    | _ => false

example : Constructible gscAfter 1 ∧ gscAfter.kind = .after ∧
    (match (GSC.reposition gscAfter).modifyGraph someCycles 1 gscGraph with
      | .ok t => some (t.value, queueOf t.value)
      | .error _ => none) = some ([(0, []), (1, [0, 2, 3]), (2, [0]), (3, [0])], [[0], [2, 3], [1]]) :=
  ⟨⟨by decide, fun h => by cases h⟩, rfl, by decide +kernel⟩

/-! ## C38 -/

/-- C38: if neither the owner nor the subject has a self-edge, they have the same senders
in the result, and if it is acyclic they are in the same consideration set. -/
theorem C38_with (t : HG α) (hs : s.Ok) (hk : c.kind = .withNode) (hc : Constructible c owner)
    (n : α) (hn : c.nodes = [n]) (so : ¬ Edge s.value owner owner) (sn : ¬ Edge s.value n n)
    (h : (GSC.reposition c).modifyGraph cyc owner s = .ok t) :
    (∀ x, Edge t.value x owner ↔ Edge t.value x n) ∧ (¬ HasCycle t.value → ∀ i,
      At (queueOf t.value) i owner ↔ At (queueOf t.value) i n) := by
  obtain ⟨hf, h⟩ := fits_of_ok hc.apart h
  have hF := OpCond.modify_frame cyc c owner hs hf h
  obtain ⟨n', hn', h1, _⟩ := hc.withNode hk
  have hnm : n ∈ c.nodes := by rw [hn]; exact List.mem_singleton.mpr rfl
  have hno : n ≠ owner := fun e => hc.apart (e ▸ hnm)
  rw [HG.edge_value hs] at so sn
  obtain ⟨hsame, to, tn⟩ := OpCond.with_senders hs hf hk hn h1 so sn h
  have he : ∀ x, Edge t.value x owner ↔ Edge t.value x n := fun x => by
    rw [HG.edge_value hF.ok, HG.edge_value hF.ok]; exact hsame x
  refine ⟨he, fun hcyc i => ?_⟩
  have hwf := HG.wf_value hF.ok
  have hp : ∀ x, ProperEdge t.value x owner ↔ ProperEdge t.value x n := by
    intro x
    constructor
    · rintro ⟨h1, h2⟩
      refine ⟨(he x).mp h1, fun e => ?_⟩
      subst e
      exact tn ((HG.edge_value hF.ok _ _).mp ((he x).mp h1))
    · rintro ⟨h1, h2⟩
      refine ⟨(he x).mpr h1, fun e => ?_⟩
      subst e
      exact to ((HG.edge_value hF.ok _ _).mp ((he x).mpr h1))
  have hnode : ∀ m, m ∈ Dict.keys s.graph → IsNode t.value m := by
    intro m hm
    have : m ∈ Dict.keys t.value := by rw [HG.keys_value, hF.keys]; exact hm
    exact .inl ((key_iff _ _).mp this)
  have hch : ∀ k, ChainTo t.value k owner ↔ ChainTo t.value k n := by
    intro k
    cases k with
    | zero => exact ⟨fun _ => hnode n (hf.nodesIn n hnm), fun _ => hnode owner hf.ownerIn⟩
    | succ k =>
      constructor
      · rintro ⟨x, h1, h2⟩; exact ⟨x, (hp x).mp h1, h2⟩
      · rintro ⟨x, h1, h2⟩; exact ⟨x, (hp x).mpr h1, h2⟩
  rw [queue_at hwf hcyc, queue_at hwf hcyc, hch, hch]

/-- `WithNode(2)` with the default options. -/
def gscWith : OpCond Nat :=
  { kind := .withNode, nodes := [2], ownerSenders := .merge, ownerReceivers := .keep,
    subjectSenders := fun _ => .merge, subjectReceivers := fun _ => .keep }

example : Constructible gscWith 3 ∧
    outcome (.reposition gscWith) 3 gscGraph = .ok [(0, []), (1, [0]), (2, [0, 1]), (3, [0, 1])] ∧
    queueOf [(0, []), (1, [0]), (2, [0, 1]), (3, [0, 1])] = [[0], [1], [2, 3]] :=
  ⟨⟨by decide, fun _ => ⟨2, rfl, rfl, rfl⟩⟩, by decide +kernel, by decide +kernel⟩

/-! ## C39 -/

/-- C39: every built-in structural condition returns a graph with the same nodes; its
sets are new objects, and no set object that existed before (in particular no set of the
argument) has been modified. -/
theorem C39_argument (d : GSC α) (t : HG α) (hs : s.Ok) (hc : owner ∉ d.nodes)
    (h : d.modifyGraph cyc owner s = .ok t) :
    Dict.keys t.value = Dict.keys s.value ∧
    (∀ n a, Dict.get? t.graph n = some a → s.heap.length ≤ a ∧ a < t.heap.length) ∧
    ∀ a, a < s.heap.length → t.heap.read a = s.heap.read a := by
  have hF : HFrame s.heap (Dict.keys s.graph) t := by
    cases d with
    | reposition c =>
      obtain ⟨hf, h⟩ := fits_of_ok (c := c) hc h
      exact OpCond.modify_frame cyc c owner hs hf h
    | addEdgeTo n =>
      unfold GSC.modifyGraph at h
      cases hg : (GSC.addEdgeTo n).inGraph owner s with
      | false => rw [hg] at h; simp at h
      | true =>
        rw [hg] at h; simp only [Bool.true_eq_false, if_false] at h
        cases h
        exact (HFrame.clone hs).edits (Q := fun _ _ _ _ => True)
          (Edits.refl.step (add := true) (x := owner) (r := n) trivial)
    | removeEdgeFrom n =>
      unfold GSC.modifyGraph at h
      cases hg : (GSC.removeEdgeFrom n).inGraph owner s with
      | false => rw [hg] at h; simp at h
      | true =>
        rw [hg] at h; simp only [Bool.true_eq_false, if_false] at h
        cases h
        exact (HFrame.clone hs).edits (Q := fun _ _ _ _ => True)
          (Edits.refl.step (add := false) (x := n) (r := owner) trivial)
  refine ⟨by rw [HG.keys_value, HG.keys_value, hF.keys], fun n a e => ⟨hF.fresh n a e, hF.ok.bound n a e⟩,
    hF.reads⟩

/-- C39: an edge between two nodes that are neither the owner nor a subject is new only
if reconnection is on and it bridges the owner, and lost only if pruning is on and the
opposite edge existed. -/
theorem C39_locality (t : HG α) (hs : s.Ok) (hc : Constructible c owner)
    (h : (GSC.reposition c).modifyGraph cyc owner s = .ok t) (x r : α)
    (hx : ¬ Touched c owner x) (hr : ¬ Touched c owner r) :
    (Edge t.value x r → Edge s.value x r ∨
      (c.reconnect = true ∧ Edge s.value x owner ∧ Edge s.value owner r)) ∧
    (Edge s.value x r → Edge t.value x r ∨ (c.prune = true ∧ Edge s.value r x)) := by
  obtain ⟨hf, h⟩ := fits_of_ok hc.apart h
  have hF := OpCond.modify_frame cyc c owner hs hf h
  simp only [HG.edge_value hs, HG.edge_value hF.ok]
  exact OpCond.untouched_edges hs hf h x r hx hr

/-- 0 → 1 → 2 and 3, with the sets of 0 and 3 one object. -/
def sharedGraph : HG Nat := ⟨[[], [0], [1]], [(0, 0), (1, 1), (2, 2), (3, 0)]⟩

example : sharedGraph.value = [(0, []), (1, [0]), (2, [1]), (3, [])] ∧
    outcome (.reposition { gscBefore with nodes := [2] }) 1 sharedGraph =
      .ok [(0, []), (1, [0]), (2, [1]), (3, [])] ∧
    outcome (.reposition { gscBefore with nodes := [0] }) 1 sharedGraph =
      .ok [(0, [1]), (1, []), (2, [1, 0]), (3, [])] := by decide +kernel

theorem sharedGraph_ok : sharedGraph.Ok := ⟨by decide, fun n a h => by
  have := Dict.mem_of_get? h
  revert this
  generalize hp : (n, a) = p
  intro this
  have : ∀ p ∈ sharedGraph.graph, p.2 < 3 := by decide
  have := this p ‹_›
  subst hp; exact this⟩

/-! ## C40 -/

/-- C40: the operations (`_GSCWithOperations._process`), applied to a graph whose sets are
separate objects: `ConditionError` exactly if conflicts are not ignored and two
operations disagree about an edge; without disagreement the neighbours of owner and
subjects are exactly the results of the operations, and nothing else changes. -/
theorem C40_operations (hs : s.Ok) (hin : owner ∈ Dict.keys s.graph)
    (hn : ∀ n ∈ c.nodes, n ∈ Dict.keys s.graph) (hc : owner ∉ c.nodes)
    (hi : ∀ n m a, Dict.get? s.graph n = some a → Dict.get? s.graph m = some a → n = m) :
    (c.operate owner s = .error .conditionError ↔
      c.ignoreConflicts = false ∧ Disagree c owner s.value) ∧
    (c.operate owner s ≠ .error .conditionError → ∃ t, c.operate owner s = .ok t) ∧
    (¬ Disagree c owner s.value → ∃ t, c.operate owner s = .ok t ∧ Operated c owner s.value t.value) := by
  have hf : c.Fits owner s := ⟨hin, hn, hc⟩
  have hfl := OpCond.loopEnd_flag c owner hs hf hi
  rw [OpCond.operate_eq]
  refine ⟨?_, ?_, ?_⟩
  · rw [← hfl]
    by_cases h : c.ignoreConflicts = false ∧ (c.loopEnd owner s).2 = true
    · rw [if_pos h]; exact ⟨fun _ => h, fun _ => rfl⟩
    · rw [if_neg h]; exact ⟨fun e => (by cases e), fun e => absurd e h⟩
  · intro h
    by_cases h' : c.ignoreConflicts = false ∧ (c.loopEnd owner s).2 = true
    · rw [if_pos h'] at h; exact absurd rfl h
    · rw [if_neg h']; exact ⟨_, rfl⟩
  · intro h
    rw [if_neg (fun e => h (hfl.mp e.2))]
    exact ⟨_, rfl, OpCond.loopEnd_operated c owner hs hf hi h⟩

/-- C40 for the public classes: when `modify_graph` raises.  `g1` is the graph without the
edges between the owner and the subjects. -/
theorem C40_rejected (hs : s.Ok) (hc : Constructible c owner) :
    ∃ g1, WithoutOwnerEdges c owner s.value g1 ∧
      ∀ e, (GSC.reposition c).modifyGraph cyc owner s = .error e ↔ e = .conditionError ∧
        ((owner ∉ Dict.keys s.value ∨ ∃ n ∈ c.nodes, n ∉ Dict.keys s.value) ∨
        (¬ AlreadyPlaced c owner s.value ∧ c.ignoreConflicts = false ∧ Disagree c owner g1)) := by
  by_cases hin : owner ∈ Dict.keys s.graph ∧ ∀ n ∈ c.nodes, n ∈ Dict.keys s.graph
  · have hf : c.Fits owner s := ⟨hin.1, hin.2, hc.apart⟩
    have P := OpCond.pre_spec c owner hs hf
    have hfl := OpCond.loopEnd_flag c owner P.frame.ok P.fits P.noShare
    refine ⟨(c.pre owner s).value, ⟨by rw [HG.keys_value, HG.keys_value, P.frame.keys], fun x r => ?_⟩,
      fun e => ?_⟩
    · rw [HG.edge_value P.frame.ok, P.mem, HG.edge_value hs]
    · rw [modifyGraph_eq hf, HG.keys_value]
      have no : ¬ (owner ∉ Dict.keys s.graph ∨ ∃ n ∈ c.nodes, n ∉ Dict.keys s.graph) := by
        rintro (h | ⟨n, h1, h2⟩)
        · exact h hin.1
        · exact h2 (hin.2 n h1)
      rw [← valid_iff hs, ← hfl]
      rcases OpCond.modify_cases cyc c owner hs hf with ⟨hv, e'⟩ | ⟨h1, h2, h3, e'⟩ | ⟨h1, h2, u, _, _, _, e', _⟩
      · rw [e']
        exact ⟨fun h => (by cases h), fun h => h.2.elim (fun h => absurd h no) (fun h => absurd hv h.1)⟩
      · rw [e']
        exact ⟨fun h => (by cases h; exact ⟨rfl, .inr ⟨h1, h2, h3⟩⟩), fun h => by rw [h.1]⟩
      · rw [e']
        exact ⟨fun h => (by cases h), fun h => h.2.elim (fun h => absurd h no) (fun h => absurd h.2 h2)⟩
  · have hg : (GSC.reposition c).inGraph owner s = false := by
      rw [Bool.eq_false_iff]
      intro hg
      simp only [GSC.inGraph, GSC.nodes, List.all_cons, Bool.and_eq_true, decide_eq_true_eq,
        List.all_eq_true] at hg
      exact hin hg
    refine ⟨s.value.map fun p => (p.1, p.2.filter fun x =>
        ¬ (x = owner ∧ p.1 ∈ c.nodes) ∧ ¬ (x ∈ c.nodes ∧ p.1 = owner)), ⟨?_, fun x r => ?_⟩, fun e => ?_⟩
    · simp [Dict.keys, Function.comp_def]
    · unfold Edge
      constructor
      · rintro ⟨p, hp, rfl, hx⟩
        obtain ⟨q, hq, rfl⟩ := List.mem_map.mp hp
        simp only [List.mem_filter, decide_eq_true_eq] at hx
        exact ⟨⟨q, hq, rfl, hx.1⟩, hx.2⟩
      · rintro ⟨⟨p, hp, rfl, hx⟩, h⟩
        refine ⟨_, List.mem_map.mpr ⟨p, hp, rfl⟩, rfl, ?_⟩
        simp only [List.mem_filter, decide_eq_true_eq]
        exact ⟨hx, h⟩
    · unfold GSC.modifyGraph; rw [hg]; simp only [if_true]
      rw [HG.keys_value]
      constructor
      · intro h
        cases h
        refine ⟨rfl, .inl ?_⟩
        apply Classical.byContradiction
        intro hn
        simp only [not_or, Classical.not_not, not_exists, not_and] at hn
        exact hin hn
      · rintro ⟨rfl, _⟩; rfl

/-- C40 for the public classes with post-processing switched off: unless the owner
already is in place or the operations disagree, the result is given by the operations
applied to the graph without the edges between the owner and the subjects, plus the edges
the class adds.  What is missing: `BeforeNodes` with `owner_senders=KEEP` and
`subject_senders=REPLACE`, where the owner also gets a self-edge (see `C40_shared`). -/
theorem C40_conditions_partial (hs : s.Ok) (hin : owner ∈ Dict.keys s.value)
    (hn : ∀ n ∈ c.nodes, n ∈ Dict.keys s.value) (hc : Constructible c owner)
    (h1 : c.removeSelf = false) (h2 : c.prune = false) (h3 : c.reconnect = false)
    (hv : ¬ AlreadyPlaced c owner s.value)
    (ha : c.kind = .before → c.ownerSenders ≠ .keep ∨ ∀ n ∈ c.nodes, c.subjectSenders n ≠ .replace) :
    ∃ g1, WithoutOwnerEdges c owner s.value g1 ∧ (¬ Disagree c owner g1 →
      ∃ t g2, (GSC.reposition c).modifyGraph cyc owner s = .ok t ∧ Operated c owner g1 g2 ∧
        ∀ x r, Edge t.value x r ↔ Edge g2 x r ∨ Added c owner g2 x r) := by
  rw [HG.keys_value] at hin
  simp only [HG.keys_value] at hn
  have hf : c.Fits owner s := ⟨hin, hn, hc.apart⟩
  have P := OpCond.pre_spec c owner hs hf
  have hfl := OpCond.loopEnd_flag c owner P.frame.ok P.fits P.noShare
  have hS := OpCond.start_spec c owner P.frame.ok P.fits P.noShare
  have hF := OpCond.frame_loopEnd c owner hS P.frame
  refine ⟨(c.pre owner s).value, ⟨by rw [HG.keys_value, HG.keys_value, P.frame.keys], fun x r => ?_⟩,
    fun hd => ⟨c.placed owner s, (c.loopEnd owner (c.pre owner s)).1.value, ?_, ?_, fun x r => ?_⟩⟩
  · rw [HG.edge_value P.frame.ok, P.mem, HG.edge_value hs]
  · rw [modifyGraph_eq hf, OpCond.modify_plain hs hf h1 h2 h3 (fun h => hv ((valid_iff hs).mp h)),
      if_neg (fun e => hd (hfl.mp e.2))]
  · exact OpCond.loopEnd_operated c owner P.frame.ok P.fits P.noShare hd
  · have ha' : c.kind = .before → ¬ c.Aliased := by
      rintro hk ⟨a1, n, a2, a3⟩
      exact (ha hk).elim (fun e => e a1) (fun e => e n a2 a3)
    have hw : c.kind = .withNode → ∃ n, c.nodes = [n] := fun hk => by
      obtain ⟨n, h, _⟩ := hc.withNode hk; exact ⟨n, h⟩
    rw [HG.edge_value (OpCond.placed_spec c owner hs hf).frame.ok,
      OpCond.placed_edges hs hf ha' hw]
    unfold Added
    cases c.kind <;> simp only [HG.edge_value hF.ok]

/-- `AfterNodes(1)` for 3 where the owner takes over the receivers of 1, which loses
them. -/
def gscOps : OpCond Nat :=
  { kind := .after, nodes := [1], ownerSenders := .keep, ownerReceivers := .merge,
    subjectSenders := fun _ => .keep, subjectReceivers := fun _ => .discard,
    reconnect := false, removeSelf := false, prune := false }

example : outcome (.reposition gscOps) 3 gscGraph = .ok [(0, []), (1, [0]), (2, [3]), (3, [0, 1])] ∧
    outcome (.reposition { gscOps with ownerSenders := .replace }) 3 gscGraph =
      .ok [(0, []), (1, [0]), (2, [3]), (3, [0, 1])] ∧
    outcome (.reposition { gscOps with
      nodes := [1, 2]
      subjectReceivers := fun _ => .keep
      subjectSenders := fun n => if n = 2 then .discard else .keep }) 3 gscGraph =
      .error .conditionError := by decide +kernel

/-- What is missing in `C40_conditions_partial`: the owner gets a self-edge that no
operation gives it, because its set is also the subject's. -/
theorem C40_shared : ∃ t, (GSC.reposition { gscAliased with
      removeSelf := false, prune := false, reconnect := false }).modifyGraph (fun _ => []) 3 gscGraph =
        .ok t ∧ Edge t.value 3 3 ∧ ¬ Edge gscGraph.value 3 3 := by
  refine ⟨_, rfl, ?_, ?_⟩
  · exact ⟨(3, [0, 3]), by decide +kernel, rfl, by decide⟩
  · rintro ⟨p, hp, h⟩
    revert p
    decide +kernel

/-! ## C41 -/

/-- C41: with reconnection, every former sender of the owner and every former receiver
of the owner that is no subject are still connected, in one direction or the other. -/
theorem C41_paths (t : HG α) (hs : s.Ok) (hc : Constructible c owner) (hr : c.reconnect = true)
    (h : (GSC.reposition c).modifyGraph cyc owner s = .ok t) (x r : α)
    (h1 : Edge s.value x owner) (h2 : Edge s.value owner r) (h3 : r ∉ c.nodes) :
    TransGen (Edge t.value) x r ∨ TransGen (Edge t.value) r x := by
  obtain ⟨hf, h⟩ := fits_of_ok hc.apart h
  obtain ⟨t0, _, h4⟩ := OpCond.modify_reconnect_off hs hf h
  rcases h4 with ⟨_, hv⟩ | ⟨hF, _, e⟩
  · rcases OpCond.modify_cases cyc c owner hs hf with ⟨_, e⟩ | ⟨h', _⟩ | ⟨h', _⟩
    · rw [h] at e; cases e
      rw [HG.clone_value hs]
      exact .inl ((TransGen.single h1).tail h2)
    · exact absurd hv h'
    · exact absurd hv h'
  · rw [e]
    refine OpCond.reconnectAll_path s.value hr hF.ok (fun r' hr' => ?_) (HG.wf_value hs) x r h3
      ((edge_base hs _ _).mpr h2) ((edge_base hs _ _).mpr h1)
    rw [hF.keys]
    rw [HG.getD_value] at hr'
    exact HG.key_of_senders hr'

/-- C41: compared with the same condition without reconnection (which succeeds too),
reconnection only adds edges, each from a former sender of the owner to a former receiver
that is no subject; and it does not make an acyclic result cyclic if the argument is
acyclic. -/
theorem C41_only_adds (t : HG α) (hs : s.Ok) (hc : Constructible c owner)
    (h : (GSC.reposition c).modifyGraph cyc owner s = .ok t) :
    ∃ t0, (GSC.reposition { c with reconnect := false }).modifyGraph cyc owner s = .ok t0 ∧
      (∀ x r, Edge t0.value x r → Edge t.value x r) ∧
      (¬ Cyclic s.value → ∀ x r, Edge t.value x r → Edge t0.value x r ∨
        (Edge s.value x owner ∧ Edge s.value owner r ∧ r ∉ c.nodes)) ∧
      (¬ Cyclic s.value → ¬ Cyclic t0.value → ¬ Cyclic t.value) := by
  obtain ⟨hf, h⟩ := fits_of_ok hc.apart h
  obtain ⟨t0, h0, h4⟩ := OpCond.modify_reconnect_off hs hf h
  have hf0 : ({ c with reconnect := false } : OpCond α).Fits owner s := ⟨hf.ownerIn, hf.nodesIn, hf.apart⟩
  refine ⟨t0, by rw [modifyGraph_eq hf0]; exact h0, ?_⟩
  rcases h4 with ⟨e, _⟩ | ⟨hF, hsh, e⟩
  · subst e
    exact ⟨fun _ _ h => h, fun _ _ _ h => .inl h, fun _ h => h⟩
  · have E := OpCond.reconnectAll_edits c owner s.value t0
    rw [← e] at E
    refine ⟨OpCond.adds_mono OpCond.mayAdd_true hF.ok E, fun hac x r hx => ?_,
      fun hac => OpCond.reconnect_acyclic (HG.wf_value hs) hac hF.ok hsh E⟩
    apply Classical.byContradiction
    intro hn
    rw [HG.edge_value (E.ok hF.ok)] at hx
    refine hn (.inl ((HG.edge_value hF.ok _ _).mpr (E.mem_old hF.ok x r (fun u r' _ q hs' => ?_) hx)))
    obtain ⟨_, _, q1, q2, q3, _⟩ := q
    have e2 := (edge_base hs _ _).mp q2
    have hrt : ¬ Touched c owner r' := by
      rintro (e' | e')
      · subst e'; exact hac ⟨_, .single e2⟩
      · exact q1 e'
    have e' := (hsh r' r hs').resolve_right fun h => hrt h.1
    subst e'
    exact hn (.inr ⟨(edge_base hs _ _).mp q3, e2, q1⟩)

example : outcome (.reposition { gscBefore with nodes := [3], ownerReceivers := .discard }) 1 gscGraph =
      .ok [(0, []), (1, [0]), (2, [0]), (3, [0, 1])] ∧
    outcome (.reposition { gscBefore with nodes := [3], ownerReceivers := .discard, reconnect := false })
      1 gscGraph = .ok [(0, []), (1, [0]), (2, []), (3, [0, 1])] := by decide +kernel

example : ¬ Cyclic gscGraph.value := no_cycle_of_lt (by decide +kernel)

/-! ## C42 -/

/-- C42: pruning terminates: for every enumeration of cycles (even a wrong one), however
many rounds are allowed beyond the number of elements of all sets plus one, the loop ends
with a graph. -/
theorem C42_terminates (base : Graph α) (hs : s.Ok) (fuel : Nat)
    (hfuel : OpCond.heapSize s.heap + 1 < fuel) :
    ∃ t, c.pruneLoop cyc owner base fuel (cyc s.value) s = .ok t := by
  obtain ⟨u, h, _⟩ := OpCond.pruneLoop_spec cyc c owner base fuel s hs hfuel
  exact ⟨u, h⟩

/-- C42: `modify_graph` raises nothing but `ConditionError` (in particular it does not
run out of rounds). -/
theorem C42_errors (hs : s.Ok) (hc : Constructible c owner) (e : Err)
    (h : (GSC.reposition c).modifyGraph cyc owner s = .error e) : e = .conditionError := by
  obtain ⟨_, _, h'⟩ := C40_rejected cyc c owner s hs hc
  exact ((h' e).mp h).1

/-- C42: compared with the same condition without pruning (which succeeds too), pruning
only removes edges, keeps every required edge, and does nothing if there is no cycle.
(Reconnection, which comes after pruning, is off in both.)  What is missing: required
edges of `BeforeNodes` with `owner_senders=KEEP` and `subject_senders=REPLACE`; see
`C42_shared`. -/
theorem C42_pruning_partial (t : HG α) (hs : s.Ok) (hc : Constructible c owner) (hp : c.prune = true)
    (hr : c.reconnect = false) (h : (GSC.reposition c).modifyGraph cyc owner s = .ok t) :
    ∃ t0, (GSC.reposition { c with prune := false }).modifyGraph cyc owner s = .ok t0 ∧
      (∀ x r, Edge t.value x r → Edge t0.value x r) ∧
      ((c.kind = .before → c.ownerSenders ≠ .keep ∨ ∀ n ∈ c.nodes, c.subjectSenders n ≠ .replace) →
        ∀ x r, RequiredEdge c owner x r → Edge t0.value x r → Edge t.value x r) ∧
      (ListsCycles cyc → (∀ cy, ¬ SimpleCycle t0.value cy) → t.value = t0.value) := by
  obtain ⟨hf, h⟩ := fits_of_ok hc.apart h
  obtain ⟨t0, h0, hok, E, hnil, hsh⟩ := OpCond.modify_prune hs hf hp hr h
  have hf0 : ({ c with prune := false } : OpCond α).Fits owner s := ⟨hf.ownerIn, hf.nodesIn, hf.apart⟩
  refine ⟨t0, by rw [modifyGraph_eq hf0]; exact h0, fun x r hx => ?_, fun ha x r hreq hx => ?_, fun hl hcy => ?_⟩
  · rw [HG.edge_value (E.ok hok)] at hx
    rw [HG.edge_value hok]
    exact E.mem_old hok x r (fun _ _ _ q => by cases q.1) hx
  · rw [HG.edge_value hok] at hx
    rw [HG.edge_value (E.ok hok)]
    rcases hsh with ⟨e, _⟩ | ⟨h1, h2⟩
    · rw [e]; exact hx
    · refine E.mem_keep hok x r (fun u r' _ q hs' => ?_) hx
      have q2 := q.2.1
      have ha' : ¬ (c.kind = .before ∧ c.Aliased) := by
        rintro ⟨hk, a1, n, a2, a3⟩
        exact (ha hk).elim (fun e => e a1) (fun e => e n a2 a3)
      unfold RequiredEdge at hreq
      unfold OpCond.required at q2
      have h2 := h2 ha'
      cases hk : c.kind with
      | before =>
        rw [hk] at hreq q2 h2
        obtain ⟨e1, e2⟩ := hreq
        simp only [e1, decide_true, Bool.true_and, decide_eq_false_iff_not] at q2
        rcases h1 r' r hs' with e | ⟨ht, _⟩
        · exact q2 (e ▸ e2)
        · have e := ht.resolve_right q2
          subst e
          exact hc.apart (h2 r hs' (by decide) ▸ e2)
      | after =>
        rw [hk] at hreq q2 h2
        obtain ⟨e1, e2⟩ := hreq
        subst e2
        have e := h2 r' hs'.symm (by decide)
        simp [e1, e] at q2
      | withNode =>
        rw [hk] at hreq q2
        simp only [Bool.or_eq_false_iff, decide_eq_false_iff_not] at q2
        rcases h1 r' r hs' with e | ⟨ht, _⟩
        · subst e; exact hreq.elim q2.1 q2.2
        · exact ht.elim q2.2 q2.1
  · rw [hnil]
    cases e : cyc t0.value with
    | nil => rfl
    | cons cy l => exact absurd ((hl t0.value).1 cy (by rw [e]; exact List.mem_cons_self)) (hcy cy)

/-- 1 → 2 → 3. -/
def gscLine : HG Nat := ⟨[[], [1], [2]], [(1, 0), (2, 1), (3, 2)]⟩

/-- The cycle 1 → 2 → 3 → 1 if it exists. -/
def lineCycle (g : Graph Nat) : List (List Nat) :=
  if 3 ∈ Dict.getD g 1 ∧ 1 ∈ Dict.getD g 2 ∧ 2 ∈ Dict.getD g 3 then [[1, 2, 3]] else []

/-- Pruning at work: 1 is put after 3, and the edge 1 → 2 is given up. -/
example : (match (GSC.reposition { gscAfter with nodes := [3], reconnect := false }).modifyGraph
        lineCycle 1 gscLine with
      | .ok t => some t.value
      | .error _ => none) = some [(1, [3]), (2, []), (3, [2])] ∧
    (match (GSC.reposition { gscAfter with nodes := [3], reconnect := false, prune := false }).modifyGraph
        lineCycle 1 gscLine with
      | .ok t => some t.value
      | .error _ => none) = some [(1, [3]), (2, [1]), (3, [2])] := by decide +kernel

/-- C42 as stated is false for such a `BeforeNodes` with
`remove_new_self_referential_edges=False`: pruning the owner's self-edge (a cycle) removes
the required edge. -/
theorem C42_shared : ∃ (cyc : Graph Nat → List (List Nat)) (t0 t : HG Nat),
    (GSC.reposition { gscAliased with removeSelf := false, reconnect := false, prune := false }).modifyGraph
      cyc 3 gscGraph = .ok t0 ∧
    (∀ cy ∈ cyc t0.value, SimpleCycle t0.value cy) ∧ Edge t0.value 3 1 ∧
    (GSC.reposition { gscAliased with removeSelf := false, reconnect := false }).modifyGraph
      cyc 3 gscGraph = .ok t ∧ ¬ Edge t.value 3 1 := by
  refine ⟨fun g => if 3 ∈ Dict.getD g 3 then [[3]] else [], _, _, rfl, ?_, ?_, rfl, ?_⟩
  · have e : ∀ cy ∈ ([[3]] : List (List Nat)), cy = [3] := by decide
    intro cy hcy
    have hcy' : cy = [3] := by
      have : ∀ (P : Prop) [Decidable P], cy ∈ (if P then ([[3]] : List (List Nat)) else []) → cy = [3] := by
        intro P _ h
        split at h
        · exact e cy h
        · cases h
      exact this _ hcy
    subst hcy'
    refine ⟨by simp, by simp, fun i a b h1 h2 => ?_⟩
    have : i = 0 := by
      have := (List.getElem?_eq_some_iff.mp h1).1
      simpa using this
    subst this
    simp at h1 h2
    subst h1; subst h2
    exact ⟨(3, [0, 3]), by decide +kernel, rfl, by decide⟩
  · exact ⟨(1, [0, 3]), by decide +kernel, rfl, by decide⟩
  · rintro ⟨p, hp, h⟩
    revert p
    decide +kernel

end GS.Props
