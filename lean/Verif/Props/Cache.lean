import Verif.Cache
import Verif.UtilLemmas
import Verif.Props.Graph
/-!
# The cache of graph functions is transparent (C53)
-/

set_option linter.unusedSectionVars false

namespace GS.Props
open GS Spec Relation
variable {α Fn H R : Type _} [DecidableEq α]

/-- Every entry has the result for a graph with the hash stored. -/
theorem cache_inv {hash : Fn → Graph α → H} {f : Fn → Graph α → Except Err R}
    {s : CacheState α Fn H R} (h : CacheReach hash f s) :
    ∀ e ∈ s.cache, ∃ h0 : Heap α, e.stored = hash e.fn (HG.value ⟨h0, e.key⟩) ∧
      f e.fn (HG.value ⟨h0, e.key⟩) = .ok e.result := by
  induction h with
  | init h => simp
  | call _ hc ih =>
    cases hc with
    | hit e _ _ => exact ih
    | miss _ hf =>
      intro e he
      rcases List.mem_cons.mp he with rfl | he
      · exact ⟨_, rfl, hf⟩
      · exact ih e he
    | raises _ _ => exact ih
  | evict _ hs ih => exact fun e he => ih e (hs e he)
  | mutate h _ ih => exact ih

/-- C53, for any cached function that gives the same result (up to `Same`) for equal
graphs: after any history of calls, evictions and modifications of graphs, a call through
the cache returns, or raises, the same as calling the function — provided that graphs
with the same hash are equal. -/
theorem C53_any_function {hash : Fn → Graph α → H} {f : Fn → Graph α → Except Err R}
    {Same : Fn → Except Err R → Except Err R → Prop} (hrefl : ∀ fn r, Same fn r r)
    (hcongr : ∀ fn g h, Dict.WF g → Dict.WF h → DictEq g h → Same fn (f fn g) (f fn h))
    (hhash : ∀ fn g h, hash fn g = hash fn h → DictEq g h)
    {s s' : CacheState α Fn H R} (hs : CacheReach hash f s)
    (hkeys : ∀ e ∈ s.cache, Dict.WF e.key) {fn : Fn} {g : Dict α Addr} (hg : Dict.WF g)
    {r : Except Err R} (hc : CachedCall hash f s fn g s' r) :
    Same fn r (f fn (HG.value ⟨s.heap, g⟩)) := by
  have wfv : ∀ (h : Heap α) (k : Dict α Addr), Dict.WF k → Dict.WF (HG.value ⟨h, k⟩) := by
    intro h k hk
    unfold Dict.WF Dict.keys HG.value
    rw [List.map_map]
    exact hk
  cases hc with
  | hit e he hm =>
    obtain ⟨h0, h1, h2⟩ := cache_inv hs e he
    obtain ⟨rfl, m2, _⟩ := hm
    rw [← h2]
    exact hcongr _ _ _ (wfv _ _ (hkeys e he)) (wfv _ _ hg) (hhash _ _ _ (h1.symm.trans m2))
  | miss _ hf => rw [hf]; exact hrefl _ _
  | raises _ hf => rw [hf]; exact hrefl _ _

/-- Results that cannot be told apart: equal dicts of sets, or the same sets in the same
order, or the same exception. -/
def SameRes : Except Err (GraphRes α) → Except Err (GraphRes α) → Prop
  | .ok (.map d), .ok (.map e) => DictEq d e
  | .ok (.layers p), .ok (.layers q) => SameQueue p q
  | .error x, .error y => x = y
  | _, _ => False

theorem dictEq_same {g h : Graph α} (hg : Dict.WF g) (hh : Dict.WF h) (he : DictEq g h) :
    SameGraph g h := by
  have hedge : ∀ s r, Edge g s r ↔ Edge h s r := by
    intro s r
    rw [← mem_getD_edge hg, ← mem_getD_edge hh]
    exact he.2 r s
  refine ⟨?_, hedge⟩
  intro n
  have h1 : ∀ k : Graph α, (∃ p ∈ k, p.1 = n) ↔ n ∈ Dict.keys k := by
    intro k; simp [Dict.keys]
  have h2 : ∀ k : Graph α, (∃ p ∈ k, n ∈ p.2) ↔ ∃ r, Edge k n r := by
    intro k
    constructor
    · rintro ⟨p, hp, hn⟩; exact ⟨p.1, p, hp, rfl, hn⟩
    · rintro ⟨r, p, hp, _, hn⟩; exact ⟨p, hp, hn⟩
  unfold IsNode
  rw [h1, h1, h2, h2, he.1 n]
  simp only [hedge]

theorem transGen_iff {g h : Graph α} (he : SameGraph g h) (a b : α) :
    TransGen (Edge g) a b ↔ TransGen (Edge h) a b :=
  ⟨transGen_congr fun x y => (he.edges x y).mp, transGen_congr fun x y => (he.edges x y).mpr⟩

theorem graphFn_congr (fn : GraphFn) (g h : Graph α) (hg : Dict.WF g) (hh : Dict.WF h)
    (he : DictEq g h) : SameRes (graphFn fn g) (graphFn fn h) := by
  have hs := dictEq_same hg hh he
  have maps : ∀ (F : Graph α → α → List α),
      (∀ n, n ∈ Dict.keys g → ∀ x, x ∈ F g n ↔ x ∈ F h n) →
      DictEq ((Dict.keys g).map fun n => (n, F g n)) ((Dict.keys h).map fun n => (n, F h n)) := by
    intro F hF
    refine ⟨fun n => ?_, fun n x => ?_⟩
    · rw [keys_map_keys, keys_map_keys]; exact he.1 n
    · unfold Dict.getD
      rw [get?_map_keys, get?_map_keys]
      by_cases hn : n ∈ Dict.keys g
      · rw [if_pos hn, if_pos ((he.1 n).mp hn)]
        exact hF n hn x
      · rw [if_neg hn, if_neg (mt (he.1 n).mpr hn)]
  cases fn with
  | ancestors =>
    refine maps (fun k n => nxAncestors (toNx k) n) ?_
    intro n hn x
    have a := mem_ancestors hg hn x
    have b := mem_ancestors hh ((he.1 n).mp hn) x
    unfold getAncestors Dict.getD at a b
    rw [get?_map_keys, if_pos hn] at a
    rw [get?_map_keys, if_pos ((he.1 n).mp hn)] at b
    simp only [Option.getD_some] at a b
    rw [a, b, transGen_iff hs]
  | descendants =>
    refine maps (fun k n => nxDescendants (toNx k) n) ?_
    intro n hn x
    have a := mem_descendants hg hn x
    have b := mem_descendants hh ((he.1 n).mp hn) x
    unfold getDescendants Dict.getD at a b
    rw [get?_map_keys, if_pos hn] at a
    rw [get?_map_keys, if_pos ((he.1 n).mp hn)] at b
    simp only [Option.getD_some] at a b
    rw [a, b, transGen_iff hs]
  | receivers =>
    refine ⟨fun n => ?_, fun n x => ?_⟩
    · rw [keys_getReceivers, keys_getReceivers]; exact hs.nodes n
    · rw [mem_getReceivers, mem_getReceivers]; exact hs.edges n x
  | queue =>
    unfold graphFn
    rcases toposort_spec g hg with ⟨p, hp, a2, a3, _, hc⟩ | ⟨hp, hc⟩ <;>
      rcases toposort_spec h hh with ⟨q, hq, b2, b3, _, hd⟩ | ⟨hq, hd⟩ <;>
      simp only [hp, hq, SameRes]
    · have hat : ∀ i n, At p i n ↔ At q i n := by
        intro i n; rw [a3, b3, hs.chain, hs.chain]
      refine ⟨?_, hat⟩
      have le : ∀ p q : List (List α), (∀ l ∈ p, l ≠ []) → (∀ i n, At p i n → At q i n) →
          p.length ≤ q.length := by
        intro p q hp hpq
        by_cases h0 : p.length = 0
        · omega
        · have hlast : p.length - 1 < p.length := by omega
          obtain ⟨n, hn⟩ := List.exists_mem_of_ne_nil _ (hp _ (List.getElem_mem hlast))
          obtain ⟨l, hl, _⟩ := hpq _ n ⟨_, List.getElem?_eq_getElem hlast, hn⟩
          have := (List.getElem?_eq_some_iff.1 hl).1
          omega
      exact Nat.le_antisymm (le _ _ (fun l hl => (a2 l hl).1) fun i n => (hat i n).1)
        (le _ _ (fun l hl => (b2 l hl).1) fun i n => (hat i n).2)
    · exact absurd (hs.cycle.mpr hd) hc
    · exact absurd (hs.cycle.mp hc) hd

/-- Calls with Python dicts (distinct keys) only. -/
inductive DictCalls (hash : Fn → Graph α → H) (f : Fn → Graph α → Except Err R) :
    CacheState α Fn H R → Prop where
  | init (h : Heap α) : DictCalls hash f { heap := h, cache := [] }
  | call {s s' : CacheState α Fn H R} {fn : Fn} {g : Dict α Addr} {r : Except Err R} :
      DictCalls hash f s → Dict.WF g → CachedCall hash f s fn g s' r → DictCalls hash f s'
  | evict {s : CacheState α Fn H R} {c : List (CacheEntry α Fn H R)} :
      DictCalls hash f s → (∀ e ∈ c, e ∈ s.cache) → DictCalls hash f { s with cache := c }
  | mutate {s : CacheState α Fn H R} (h : Heap α) :
      DictCalls hash f s → DictCalls hash f { s with heap := h }

theorem DictCalls.reach {hash : Fn → Graph α → H} {f : Fn → Graph α → Except Err R}
    {s : CacheState α Fn H R} (h : DictCalls hash f s) :
    CacheReach hash f s ∧ ∀ e ∈ s.cache, Dict.WF e.key := by
  induction h with
  | init h => exact ⟨.init h, by simp⟩
  | call _ hg hc ih =>
    refine ⟨.call ih.1 hc, ?_⟩
    cases hc with
    | hit e _ _ => exact ih.2
    | miss _ _ =>
      intro e he
      rcases List.mem_cons.mp he with rfl | he
      · exact hg
      · exact ih.2 e he
    | raises _ _ => exact ih.2
  | evict _ hs ih => exact ⟨.evict ih.1 hs, fun e he => ih.2 e (hs e he)⟩
  | mutate h _ ih => exact ⟨.mutate h ih.1, ih.2⟩

/-- C53: after any history of calls of `get_ancestors`, `get_descendants`, `get_receivers`
and of the layering function, of evictions, and of modifications of the graphs they were
called with, each returns (or raises) the same as computed afresh for the graph as it is
now — provided that graphs with the same hash are equal. -/
theorem C53_graph_functions {hash : GraphFn → Graph α → H}
    (hhash : ∀ fn g h, hash fn g = hash fn h → DictEq g h)
    {s s' : CacheState α GraphFn H (GraphRes α)} (hs : DictCalls hash graphFn s)
    {fn : GraphFn} {g : Dict α Addr} (hg : Dict.WF g) {r : Except Err (GraphRes α)}
    (hc : CachedCall hash graphFn s fn g s' r) :
    SameRes r (graphFn fn (HG.value ⟨s.heap, g⟩)) := by
  refine C53_any_function (Same := fun _ => SameRes) ?_ graphFn_congr hhash hs.reach.1 hs.reach.2
    hg hc
  intro _ r
  rcases r with x | (d | q)
  · rfl
  · exact ⟨fun _ => Iff.rfl, fun _ _ => Iff.rfl⟩
  · exact ⟨rfl, fun _ _ => Iff.rfl⟩

/-! ## The proviso is needed, and the hypotheses can be met -/

/-- CPython's hash of small integers: -1 and -2 have the same. -/
def intHash (n : Int) : Int := if n = -1 then -2 else n

/-- A hash of graphs that depends on the hashes of the nodes only, as
`HashableDict.__hash__` does. -/
def twoHash : GraphFn → Graph Int → List (Int × List Int) :=
  fun _ g => g.map fun p => (intHash p.1, p.2.map intHash)

/-- The graph `{0: {x}, -1: set(), -2: set()}`. -/
def hashGraph : Dict Int Addr := [(0, 0), (-1, 1), (-2, 2)]
def hashHeap (x : Int) : Heap Int := [[x], [], []]

/-- C53, the proviso is needed: with a hash that does not tell -1 from -2, as CPython's,
`get_receivers` of a graph whose edge was changed in place from -1 to -2 returns the
receivers of the old graph. -/
theorem C53_collision_stale :
    ∃ (s s' : CacheState Int GraphFn _ (GraphRes Int)) (r : Except Err (GraphRes Int)),
      DictCalls twoHash graphFn s ∧ CachedCall twoHash graphFn s .receivers hashGraph s' r ∧
      HG.value ⟨s.heap, hashGraph⟩ = [(0, [-2]), (-1, []), (-2, [])] ∧
      r = .ok (.map [(0, []), (-1, [0]), (-2, [])]) ∧
      ¬ SameRes r (graphFn .receivers (HG.value ⟨s.heap, hashGraph⟩)) := by
  let e : CacheEntry Int GraphFn (List (Int × List Int)) (GraphRes Int) :=
    ⟨.receivers, hashGraph, twoHash .receivers [(0, [-1]), (-1, []), (-2, [])],
      .map [(0, []), (-1, [0]), (-2, [])]⟩
  refine ⟨{ heap := hashHeap (-2), cache := [e] }, { heap := hashHeap (-2), cache := [e] }, _,
    .mutate (s := { heap := hashHeap (-1), cache := [e] }) _
      (.call (fn := .receivers) (g := hashGraph) (.init (hashHeap (-1))) (by decide)
        (.miss (by simp) (by rfl))),
    .hit e List.mem_cons_self ⟨rfl, by decide, ?_⟩, by decide, rfl, ?_⟩
  · exact ⟨fun _ => Iff.rfl, fun _ _ => Iff.rfl⟩
  · rintro ⟨_, h⟩
    have := (h (-1) 0).mp (by decide)
    revert this
    decide

/-- With the graph itself as hash the hypothesis on hashes holds. -/
example : ∀ (fn : GraphFn) (g h : Graph Nat), (fun _ g => g : GraphFn → Graph Nat → Graph Nat) fn g =
    (fun _ g => g : GraphFn → Graph Nat → Graph Nat) fn h → DictEq g h := by
  intro _ g h e
  have e' : g = h := e
  subst e'
  exact ⟨fun _ => Iff.rfl, fun _ _ => Iff.rfl⟩

/-- A hit: the second call of `get_receivers` on the same graph. -/
example : ∃ (s s' : CacheState Int GraphFn (Graph Int) (GraphRes Int)),
    s.cache ≠ [] ∧ DictCalls (fun _ g => g) graphFn s ∧
    CachedCall (fun _ g => g) graphFn s .receivers hashGraph s'
      (.ok (.map [(0, []), (-1, [0]), (-2, [])])) := by
  let e : CacheEntry Int GraphFn (Graph Int) (GraphRes Int) :=
    ⟨.receivers, hashGraph, [(0, [-1]), (-1, []), (-2, [])], .map [(0, []), (-1, [0]), (-2, [])]⟩
  exact ⟨{ heap := hashHeap (-1), cache := [e] }, { heap := hashHeap (-1), cache := [e] },
    by simp, .call (fn := .receivers) (g := hashGraph) (.init (hashHeap (-1))) (by decide)
        (.miss (by simp) (by rfl)),
    .hit e List.mem_cons_self ⟨rfl, by decide, fun _ => Iff.rfl, fun _ _ => Iff.rfl⟩⟩

end GS.Props
