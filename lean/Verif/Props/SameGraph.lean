import Verif.SameGraph
import Verif.Cycles
import Verif.Props.GSC
import Verif.Spec.Structural
/-!
# C111: structural conditions and the order in which a graph is written

The same graph can be written with its keys, and the elements of its sets, in different
orders.  `cyc` and `cyc'` stand for two enumerations of cycles.
-/

set_option linter.unusedSectionVars false

namespace GS.Props
open Spec Relation
variable {α : Type _} [DecidableEq α]

theorem inGraph_same (d : GSC α) (owner : α) {s s' : HG α} (e : SameShape s.value s'.value) :
    d.inGraph owner s = d.inGraph owner s' := by
  have hk : ∀ n, n ∈ Dict.keys s.graph ↔ n ∈ Dict.keys s'.graph := fun n => by
    have := e.keys n; rwa [HG.keys_value, HG.keys_value] at this
  unfold GSC.inGraph
  rw [Bool.eq_iff_iff]
  simp only [List.all_eq_true, decide_eq_true_eq, hk]

/-- C111: a built-in structural condition has the same effect on two graphs with the same
edges, whatever the order of the nodes and of their senders, and for all enumerations of
cycles.  What is missing: conditions with `ignore_conflicts` whose operations disagree
(`C111_conflicts_order`), reconnection in a graph with a cycle (`C111_reconnect_order`) and
conditions that do prune cycles (`C111_pruning_order`); in all of them the result depends on
the order. -/
theorem C111_same_partial (cyc cyc' : Graph α → List (List α)) (hl : ListsCycles cyc)
    (hl' : ListsCycles cyc') (d : GSC α) (owner : α) {s s' : HG α} (hs : s.Ok) (hs' : s'.Ok)
    (e : SameShape s.value s'.value) (h : Unordered cyc owner s d) :
    SameOutcome (d.modifyGraph cyc owner s) (d.modifyGraph cyc' owner s') := by
  have hg := inGraph_same d owner e
  cases hin : d.inGraph owner s with
  | false =>
    have hin' := hg ▸ hin
    unfold GSC.modifyGraph
    rw [hin, hin']; exact .raised _
  | true =>
  have hin' := hg ▸ hin
  have C := HG.clone_spec hs
  have C' := HG.clone_spec hs'
  have hm : ∀ x r, x ∈ s.clone.senders r ↔ x ∈ s'.clone.senders r := fun x r => by
    rw [C.same, C'.same, ← HG.edge_value hs, ← HG.edge_value hs']; exact e.edges x r
  have hk : ∀ n, n ∈ Dict.keys s.clone.graph ↔ n ∈ Dict.keys s'.clone.graph := fun n => by
    have := e.keys n; rw [HG.keys_value, HG.keys_value] at this; rwa [C.keys, C'.keys]
  have hupd : ∀ (n : α) (f : List α → List α),
      (∀ l l' : List α, (∀ x, x ∈ l ↔ x ∈ l') → ∀ x, x ∈ f l ↔ x ∈ f l') →
      n ∈ Dict.keys s.clone.graph → SameShape (s.clone.upd n f).value (s'.clone.upd n f).value := by
    intro n f hf hn
    refine ⟨fun m => ?_, fun x r => ?_⟩
    · rw [HG.keys_value, HG.keys_value, HG.graph_upd, HG.graph_upd]; exact hk m
    · rw [HG.edge_value (C.ok.upd _ _), HG.edge_value (C'.ok.upd _ _)]
      by_cases hr : r = n
      · subst hr
        rw [HG.senders_upd_self C.ok hn, HG.senders_upd_self C'.ok ((hk _).mp hn)]
        exact hf _ _ (fun y => hm y r) x
      · rw [HG.senders_upd_other C.ok _ (fun ⟨a, q1, q2⟩ => hr (C.inj r n a q2 q1)),
          HG.senders_upd_other C'.ok _ (fun ⟨a, q1, q2⟩ => hr (C'.inj r n a q2 q1))]
        exact hm x r
  have hmem : ∀ n ∈ owner :: d.nodes, n ∈ Dict.keys s.clone.graph := fun n hn => by
    unfold GSC.inGraph at hin
    rw [C.keys]
    simpa using List.all_eq_true.mp hin n hn
  cases d with
  | addEdgeTo n =>
    unfold GSC.modifyGraph; rw [hin, hin']
    exact .graph <| hupd n (setAdd owner) (fun l l' h x => by simp [h]) (hmem n (by simp [GSC.nodes]))
  | removeEdgeFrom n =>
    unfold GSC.modifyGraph; rw [hin, hin']
    exact .graph <| hupd owner (setRemove n) (fun l l' h x => by simp [h]) (hmem owner (by simp))
  | reposition c =>
    obtain ⟨hc, hi, hr, hp⟩ := h
    have hf : c.Fits owner s := ⟨by rw [← C.keys]; exact hmem owner (by simp),
      fun n hn => by rw [← C.keys]; exact hmem n (by simp [GSC.nodes, hn]), hc.apart⟩
    rw [modifyGraph_eq hf, modifyGraph_eq (OpCond.fits_same e hf)]
    have P := OpCond.pre_spec c owner hs hf
    have hfl := OpCond.loopEnd_flag c owner P.frame.ok P.fits P.noShare
    refine OpCond.modify_same cyc cyc' hs hs' hf e
      (fun hk => by obtain ⟨n, h, _⟩ := hc.withNode hk; exact ⟨n, h⟩) (fun h1 h2 h3 => ?_) hr
      (fun g => cyc_nil hl) (fun g => cyc_nil hl') (fun h1 h2 h3 => ?_)
    · rcases hi with hi | ⟨t, ht⟩
      · rw [hi] at h1; cases h1
      · have hf1 : ({ c with ignoreConflicts := false } : OpCond α).Fits owner s :=
          ⟨hf.ownerIn, hf.nodesIn, hf.apart⟩
        rw [modifyGraph_eq hf1] at ht
        rcases OpCond.modify_cases cyc { c with ignoreConflicts := false } owner hs hf1 with
          ⟨h, _⟩ | ⟨_, _, _, h⟩ | ⟨_, h, _⟩
        · exact h2 h
        · rw [ht] at h; cases h
        · exact h ⟨rfl, hfl.mpr h3⟩
    · have hf1 : ({ c with prune := false, reconnect := false } : OpCond α).Fits owner s :=
          ⟨hf.ownerIn, hf.nodesIn, hf.apart⟩
      refine hp h3 _ ?_
      rw [modifyGraph_eq hf1, OpCond.modify_unpruned cyc hs hf1 h1 (fun h => h2 h.2) (fun h => by cases h)]
      rfl

theorem shape_symm {g h : Graph α} (e : SameShape g h) : SameShape h g :=
  ⟨fun n => (e.keys n).symm, fun x r => (e.edges x r).symm⟩

theorem shape_graph {g h : Graph α} (e : SameShape g h) : SameGraph g h := by
  have key : ∀ {g h : Graph α}, SameShape g h → ∀ n, IsNode g n → IsNode h n := by
    intro g h e n hn
    rcases hn with ⟨p, hp, hn⟩ | ⟨p, hp, hn⟩
    · have := (e.keys n).mp (hn ▸ List.mem_map_of_mem hp)
      obtain ⟨q, hq, e⟩ := List.mem_map.mp this
      exact .inl ⟨q, hq, e⟩
    · obtain ⟨q, hq, _, h⟩ := (e.edges n p.1).mp ⟨p, hp, rfl, hn⟩
      exact .inr ⟨q, hq, h⟩
  exact ⟨fun n => ⟨key e n, key (shape_symm e) n⟩, e.edges⟩

theorem modifyGraph_ok {cyc : Graph α → List (List α)} {d : GSC α} {owner : α} {s t : HG α} (hs : s.Ok)
    (hd : Unordered cyc owner s d) (h : d.modifyGraph cyc owner s = .ok t) : t.Ok := by
  cases d with
  | reposition c =>
    obtain ⟨hf, h⟩ := fits_of_ok hd.1.apart h
    exact (OpCond.modify_frame cyc c owner hs hf h).ok
  | addEdgeTo n =>
    unfold GSC.modifyGraph at h
    split at h
    · cases h
    · cases h; exact (HG.clone_spec hs).ok.upd _ _
  | removeEdgeFrom n =>
    unfold GSC.modifyGraph at h
    split at h
    · cases h
    · cases h; exact (HG.clone_spec hs).ok.upd _ _

/-- The conclusion of the next theorem: the same graph, or the same error. -/
inductive SameResult : Except Err (Graph α) → Except Err (Graph α) → Prop
  | graph {g h : Graph α} : SameShape g h → Dict.WF g → Dict.WF h → SameResult (.ok g) (.ok h)
  | raised (e : Err) : SameResult (.error e) (.error e)

/-- C111: the same for any number of conditions, applied one after the other. -/
theorem C111_all_partial (cyc cyc' : Graph α → List (List α)) (hl : ListsCycles cyc)
    (hl' : ListsCycles cyc') (ds : List (α × GSC α)) : ∀ {g g' : Graph α}, Dict.WF g → Dict.WF g' →
    SameShape g g' → AllUnordered cyc g ds → SameResult (applyAll cyc g ds) (applyAll cyc' g' ds) := by
  induction ds with
  | nil => intro g g' hg hg' e _; exact .graph e hg hg'
  | cons p ds ih =>
    obtain ⟨owner, d⟩ := p
    intro g g' hg hg' e h
    obtain ⟨h1, h2⟩ := h
    have hs := HG.load_ok hg
    have hs' := HG.load_ok hg'
    have := C111_same_partial cyc cyc' hl hl' d owner hs hs'
      (by rw [HG.load_value, HG.load_value]; exact e) h1
    unfold applyAll
    unfold GSC.onValue at h2 ⊢
    cases e1 : d.modifyGraph cyc owner (HG.load g) with
    | error x =>
      cases e2 : d.modifyGraph cyc' owner (HG.load g') with
      | error y => rw [e1, e2] at this; cases this; exact .raised _
      | ok y => rw [e1, e2] at this; cases this
    | ok x =>
      cases e2 : d.modifyGraph cyc' owner (HG.load g') with
      | error y => rw [e1, e2] at this; cases this
      | ok y =>
        rw [e1, e2] at this
        cases this with | graph this =>
        rw [e1] at h2
        refine ih (HG.wf_value (modifyGraph_ok hs h1 e1)) ?_ this (h2 _ rfl)
        have hy : y.Ok := by
          cases d with
          | reposition c =>
            obtain ⟨hf, h⟩ := fits_of_ok h1.1.apart e2
            exact (OpCond.modify_frame cyc' c owner hs' hf h).ok
          | addEdgeTo n => exact modifyGraph_ok (d := _) (cyc := cyc') hs' (by unfold Unordered; trivial) e2
          | removeEdgeFrom n => exact modifyGraph_ok (d := _) (cyc := cyc') hs' (by unfold Unordered; trivial) e2
        exact HG.wf_value hy

/-- C111: and then the consideration queues are the same, too: the same sets in the same
order. -/
theorem C111_queue_partial (cyc cyc' : Graph α → List (List α)) (hl : ListsCycles cyc)
    (hl' : ListsCycles cyc') (ds : List (α × GSC α)) {g g' h : Graph α} (hg : Dict.WF g)
    (hg' : Dict.WF g') (e : SameShape g g') (ho : AllUnordered cyc g ds)
    (ha : applyAll cyc g ds = .ok h) (hc : ¬ HasCycle h) :
    ∃ h', applyAll cyc' g' ds = .ok h' ∧ ¬ HasCycle h' ∧ SameQueue (queueOf h) (queueOf h') := by
  have := C111_all_partial cyc cyc' hl hl' ds hg hg' e ho
  rw [ha] at this
  cases e2 : applyAll cyc' g' ds with
  | error x => rw [e2] at this; cases this
  | ok h' =>
    rw [e2] at this
    cases this with | graph t1 t2 t3 =>
    have hsg := shape_graph t1
    have hc' : ¬ HasCycle h' := fun x => hc (hsg.cycle.2 x)
    refine ⟨h', rfl, hc', ?_⟩
    have hat : ∀ i n, At (queueOf h) i n ↔ At (queueOf h') i n := by
      intro i n; rw [queue_at t2 hc, queue_at t3 hc', hsg.chain, hsg.chain]
    have full : ∀ {k : Graph α}, Dict.WF k → ¬ HasCycle k → ∀ l ∈ queueOf k, l ≠ [] := by
      intro k hk hck l hl
      rcases toposort_spec k hk with ⟨ls, q1, q2, _⟩ | ⟨_, q⟩
      · have e : queueOf k = ls := by unfold queueOf; rw [q1]
        rw [e] at hl; exact (q2 l hl).1
      · exact absurd q hck
    have le : ∀ p q : List (List α), (∀ l ∈ p, l ≠ []) → (∀ i n, At p i n → At q i n) →
        p.length ≤ q.length := by
      intro p q hp hpq
      by_cases h0 : p.length = 0
      · omega
      · have hlast : p.length - 1 < p.length := by omega
        obtain ⟨n, hn⟩ := List.exists_mem_of_ne_nil _ (hp _ (List.getElem_mem hlast))
        obtain ⟨l, hl, _⟩ := hpq _ n ⟨_, List.getElem?_eq_getElem hlast, hn⟩
        have := (List.getElem?_eq_some_iff.1 hl).1
        omega
    exact ⟨Nat.le_antisymm (le _ _ (full t2 hc) fun i n => (hat i n).1)
      (le _ _ (full t3 hc') fun i n => (hat i n).2), hat⟩

/-! ## Where the order matters -/

/-- Decided on lists. -/
def shapeB (g h : Graph Nat) : Bool :=
  (Dict.keys g).all (· ∈ Dict.keys h) && (Dict.keys h).all (· ∈ Dict.keys g) &&
  g.all (fun p => p.2.all fun x => edgeB h x p.1) && h.all (fun p => p.2.all fun x => edgeB g x p.1)

theorem shapeB_iff (g h : Graph Nat) : shapeB g h = true ↔ SameShape g h := by
  unfold shapeB
  simp only [Bool.and_eq_true, List.all_eq_true, decide_eq_true_eq, edgeB_iff]
  constructor
  · rintro ⟨⟨⟨h1, h2⟩, h3⟩, h4⟩
    exact ⟨fun n => ⟨h1 n, h2 n⟩, fun x r => ⟨fun ⟨p, hp, e, hx⟩ => e ▸ h3 p hp x hx,
      fun ⟨p, hp, e, hx⟩ => e ▸ h4 p hp x hx⟩⟩
  · rintro ⟨h1, h2⟩
    exact ⟨⟨⟨fun n => (h1 n).mp, fun n => (h1 n).mpr⟩, fun p hp x hx => (h2 x p.1).mp ⟨p, hp, rfl, hx⟩⟩,
      fun p hp x hx => (h2 x p.1).mpr ⟨p, hp, rfl, hx⟩⟩

/-- What the condition makes of the two graphs, and that these differ. -/
def differs (cyc : Graph Nat → List (List Nat)) (c : GSC Nat) (owner : Nat) (g g' : Graph Nat) : Bool :=
  shapeB g g' && match c.onValue cyc owner g, c.onValue cyc owner g' with
    | .ok h, .ok h' => !shapeB h h'
    | _, _ => false

theorem differs_iff {cyc : Graph Nat → List (List Nat)} {c : GSC Nat} {owner : Nat} {g g' : Graph Nat}
    (h : differs cyc c owner g g' = true) : SameShape g g' ∧ ∃ t t',
      c.onValue cyc owner g = .ok t ∧ c.onValue cyc owner g' = .ok t' ∧ ¬ SameShape t t' := by
  unfold differs at h
  rw [Bool.and_eq_true] at h
  refine ⟨(shapeB_iff _ _).mp h.1, ?_⟩
  have h := h.2
  cases e1 : c.onValue cyc owner g with
  | error x => rw [e1] at h; cases h
  | ok t =>
    cases e2 : c.onValue cyc owner g' with
    | error x => rw [e1, e2] at h; cases h
    | ok t' =>
      rw [e1, e2] at h
      refine ⟨t, t', rfl, rfl, fun e => ?_⟩
      simp only [(shapeB_iff _ _).mpr e] at h
      cases h

theorem no_cycle_of_rank {g : Graph Nat} (f : Nat → Nat) (h : ∀ p ∈ g, ∀ x ∈ p.2, f x < f p.1) :
    ¬ Cyclic g := by
  have key : ∀ a b, TransGen (Edge g) a b → f a < f b := by
    intro a b t
    have e1 : ∀ x y, Edge g x y → f x < f y := fun x y ⟨p, hp, e, hx⟩ => e ▸ h p hp x hx
    induction t with
    | single e => exact e1 _ _ e
    | tail _ e ih => exact Nat.lt_trans ih (e1 _ _ e)
  rintro ⟨n, hn⟩
  exact Nat.lt_irrefl _ (key n n hn)

/-- A graph with cycles: 1 and 2 before 0, 0 before 3 and 4, 3 before 2 and 4 before 1. -/
def ringA : Graph Nat := [(0, [1, 2]), (1, [4]), (2, [3]), (3, [0]), (4, [0]), (5, [])]
/-- The same with the senders of 0 listed in the other order. -/
def ringB : Graph Nat := [(0, [2, 1]), (1, [4]), (2, [3]), (3, [0]), (4, [0]), (5, [])]
/-- Take 0 out of the cycles and put it before 5. -/
def takeOut : OpCond Nat :=
  { kind := .before, nodes := [5], ownerSenders := .discard, ownerReceivers := .discard,
    subjectSenders := fun _ => .keep, subjectReceivers := fun _ => .keep, prune := false }

/-- C111 as stated is false: which former neighbours of the owner are reconnected in a
graph with cycles depends on the order in which they are listed. -/
theorem C111_reconnect_order : Constructible takeOut 0 ∧ takeOut.ignoreConflicts = false ∧
    takeOut.prune = false ∧ SameShape ringA ringB ∧
    ∃ t t', (GSC.reposition takeOut).onValue cyclesOf 0 ringA = .ok t ∧
      (GSC.reposition takeOut).onValue cyclesOf 0 ringB = .ok t' ∧ ¬ SameShape t t' :=
  ⟨⟨by decide, fun h => by cases h⟩, rfl, rfl, differs_iff (by decide +kernel)⟩

/-- An acyclic graph: 1 before 5, 3 and 5 before 4, 4 before 0. -/
def lineA : Graph Nat := [(0, [4]), (1, []), (2, []), (3, []), (4, [3, 5]), (5, [1])]
/-- The same with other places for 3 and 5. -/
def lineB : Graph Nat := [(0, [4]), (5, [1]), (1, []), (2, []), (4, [3, 5]), (3, [])]
/-- Put 0 before 1, 2 and 3, whose receivers it takes over; 1 loses its own. -/
def putFirst : OpCond Nat :=
  { kind := .before, nodes := [1, 2, 3], ownerSenders := .keep, ownerReceivers := .merge,
    subjectSenders := fun _ => .keep,
    subjectReceivers := fun n => if n = 1 then .discard else .keep }

/-- C111 as stated is false: which edges are pruned depends on the order in which the
cycles are found, which depends on the order of the nodes, even for an acyclic graph and
the default switches. -/
theorem C111_pruning_order : Constructible putFirst 0 ∧ putFirst.ignoreConflicts = false ∧
    ¬ Cyclic lineA ∧ ListsCycles (cyclesOf (α := Nat)) ∧ SameShape lineA lineB ∧
    ∃ t t', (GSC.reposition putFirst).onValue cyclesOf 0 lineA = .ok t ∧
      (GSC.reposition putFirst).onValue cyclesOf 0 lineB = .ok t' ∧ ¬ SameShape t t' :=
  ⟨⟨by decide, fun h => by cases h⟩, rfl, no_cycle_of_rank (fun n => [3, 0, 0, 0, 2, 1].getD n 0) (by decide), cyclesOf_lists,
    differs_iff (by decide +kernel)⟩

/-- 3 before 0, 1 before 2. -/
def pairA : Graph Nat := [(0, [3]), (1, []), (2, [1]), (3, [])]
/-- The same with 1 and 2 exchanged. -/
def pairB : Graph Nat := [(0, [3]), (2, [1]), (1, []), (3, [])]
/-- Put 0 after 1 and 2, which get the senders of 0; conflicts are ignored. -/
def putLast : OpCond Nat :=
  { kind := .after, nodes := [1, 2], ownerSenders := .keep, ownerReceivers := .keep,
    subjectSenders := fun _ => .replace, subjectReceivers := fun _ => .keep,
    ignoreConflicts := true, removeSelf := false, prune := false, reconnect := false }

/-- C111 as stated is false: if conflicts are ignored, the result depends on the order in
which the nodes are visited, even for an acyclic graph without pruning and reconnection. -/
theorem C111_conflicts_order : Constructible putLast 0 ∧ putLast.reconnect = false ∧
    putLast.prune = false ∧ ¬ Cyclic pairA ∧ SameShape pairA pairB ∧
    ∃ t t', (GSC.reposition putLast).onValue cyclesOf 0 pairA = .ok t ∧
      (GSC.reposition putLast).onValue cyclesOf 0 pairB = .ok t' ∧ ¬ SameShape t t' :=
  ⟨⟨by decide, fun h => by cases h⟩, rfl, rfl, no_cycle_of_rank (fun n => [1, 0, 1, 0].getD n 0) (by decide),
    differs_iff (by decide +kernel)⟩

/-! ## Concrete cases -/

/-- `BeforeNodes(3)` for 1, which loses its receivers: 0 is connected with 2 instead. -/
def oneBeforeThree : OpCond Nat := { gscBefore with nodes := [3], ownerReceivers := .discard }
/-- 0 before 1 and 3, 1 before 2. -/
def treeA : Graph Nat := [(0, []), (1, [0]), (2, [1]), (3, [0])]
/-- The same in another order. -/
def treeB : Graph Nat := [(3, [0]), (2, [1]), (0, []), (1, [0])]
/-- And then an edge from 2 to 3. -/
def twoConds : List (Nat × GSC Nat) := [(1, .reposition oneBeforeThree), (2, .addEdgeTo 3)]

theorem oneBeforeThree_free : Unordered cyclesOf 1 (HG.load treeA) (.reposition oneBeforeThree) := by
  refine ⟨⟨by decide, fun h => by cases h⟩, .inl rfl, fun _ => no_cycle_of_lt (by decide +kernel),
    fun _ t ht => ?_⟩
  have : (GSC.reposition { oneBeforeThree with prune := false, reconnect := false }).onValue cyclesOf 1
      treeA = .ok [(0, []), (1, [0]), (2, []), (3, [0, 1])] := by decide +kernel
  unfold GSC.onValue at this
  rw [ht] at this
  simp only [Except.ok.injEq] at this
  rw [this]
  exact no_cycle_of_lt (by decide)

theorem twoConds_free : AllUnordered cyclesOf treeA twoConds :=
  ⟨oneBeforeThree_free, fun _ _ => ⟨trivial, fun _ _ => trivial⟩⟩

theorem tree_shape : SameShape treeA treeB := (shapeB_iff _ _).mp (by decide +kernel)

theorem twoConds_result : applyAll cyclesOf treeA twoConds = .ok [(0, []), (1, [0]), (2, [0]), (3, [0, 1, 2])] := by
  decide +kernel

/-- `C111_same_partial` applied. -/
example : SameOutcome ((GSC.reposition oneBeforeThree).modifyGraph cyclesOf 1 (HG.load treeA))
    ((GSC.reposition oneBeforeThree).modifyGraph cyclesOf 1 (HG.load treeB)) := by
  have e : SameShape (HG.load treeA).value (HG.load treeB).value := by
    rw [HG.load_value, HG.load_value]; exact tree_shape
  exact C111_same_partial cyclesOf cyclesOf cyclesOf_lists cyclesOf_lists (.reposition oneBeforeThree) 1
    (s := HG.load treeA) (s' := HG.load treeB) (HG.load_ok (by decide)) (HG.load_ok (by decide)) e
    oneBeforeThree_free

/-- `C111_all_partial` applied. -/
example : SameResult (applyAll cyclesOf treeA twoConds) (applyAll cyclesOf treeB twoConds) :=
  C111_all_partial cyclesOf cyclesOf cyclesOf_lists cyclesOf_lists twoConds (g := treeA) (g' := treeB)
    (by decide) (by decide) tree_shape twoConds_free

/-- `C111_queue_partial` applied. -/
example : ∃ h', applyAll cyclesOf treeB twoConds = .ok h' ∧ ¬ HasCycle h' ∧
      SameQueue (queueOf [(0, []), (1, [0]), (2, [0]), (3, [0, 1, 2])]) (queueOf h') :=
  C111_queue_partial cyclesOf cyclesOf cyclesOf_lists cyclesOf_lists twoConds (g := treeA) (g' := treeB)
    (by decide) (by decide) tree_shape twoConds_free twoConds_result
    (fun ⟨n, hn⟩ => no_cycle_of_lt (g := [(0, []), (1, [0]), (2, [0]), (3, [0, 1, 2])]) (by decide)
        ⟨n, OpCond.TransGen.mono' (fun _ _ e => e.1) hn⟩)

/-- The two results, and what the pruning example makes of the two graphs. -/
example : applyAll cyclesOf treeA twoConds = .ok [(0, []), (1, [0]), (2, [0]), (3, [0, 1, 2])] ∧
    applyAll cyclesOf treeB twoConds = .ok [(3, [0, 1, 2]), (2, [0]), (0, []), (1, [0])] ∧
    (GSC.reposition putFirst).onValue cyclesOf 0 lineA =
      .ok [(0, []), (1, [0]), (2, [0]), (3, [0]), (4, [3, 5, 0]), (5, [0])] ∧
    (GSC.reposition putFirst).onValue cyclesOf 0 lineB =
      .ok [(0, []), (5, []), (1, [0]), (2, [0]), (4, [3, 5, 0]), (3, [0])] := by decide +kernel

end GS.Props
