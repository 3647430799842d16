import Verif.Placed
import Verif.LifeDefault
import Verif.Props.Default
import Verif.Props.Whole
/-!
# C77: structural conditions decide the order of execution
-/

set_option linter.unusedSectionVars false

namespace GS.Props
open Spec
variable {α κ W : Type _} [DecidableEq α] [DecidableEq κ]
variable {E : Sys α κ W → Sys α κ W → Prop} {a : RunArgs α κ W} {s0 s : Sys α κ W}
variable {abs : Bool} {h seg : History α κ W} {pc : PC α}
variable {cyc : Graph α → List (List α)} {g0 g : Graph α} {ops : List (SchedOp α κ W)}
variable {w : Whole α κ W}

/-- The sets of a part of one pass belong to increasing positions of the queue. -/
theorem segment_at (hr : Reach E a s0 abs h s pc) (hE : Keeps E (fun s => s.queue))
    (hseg : InOnePass h seg) {l1 l2 : List (List α)} {set : List α}
    (hy : yields seg = l1 ++ set :: l2) {x : α} (hx : x ∈ set) :
    ∃ i, At s0.queue i x ∧ (∀ y ∈ set, At s0.queue i y) ∧
      (∀ set' ∈ l1, ∀ y ∈ set', ∃ j, j < i ∧ At s0.queue j y) ∧
      (∀ set' ∈ l2, ∀ y ∈ set', ∃ j, i < j ∧ At s0.queue j y) := by
  obtain ⟨h1, h2, hh, hns⟩ := hseg
  obtain ⟨ps, h1', h2', h3'⟩ := C06_one_layer_in_order hr hE hh hns
  have hf : (yields seg).filter (fun set => decide (set ≠ [])) =
      l1.filter (fun set => decide (set ≠ [])) ++ set :: l2.filter (fun set => decide (set ≠ [])) := by
    have : set ≠ [] := fun e => by rw [e] at hx; simp at hx
    rw [hy, List.filter_append, List.filter_cons, if_pos (by simpa using this)]
  rw [hf] at h1'
  obtain ⟨p1, p2, rfl, hp1, hp2⟩ := List.map_eq_append_iff.1 h1'
  obtain ⟨p, p3, rfl, hpset, hp3⟩ := List.map_eq_cons_iff.1 hp2
  have hin : ∀ (l : List (List α)) (q : List (Nat × List α)),
      q.map Prod.snd = l.filter (fun set => decide (set ≠ [])) → ∀ set' ∈ l, ∀ y ∈ set',
      ∃ r ∈ q, r.2 = set' := by
    intro l q hq set' hs y hyy
    have : set' ∈ q.map Prod.snd := by
      rw [hq, List.mem_filter]
      refine ⟨hs, ?_⟩
      have : set' ≠ [] := fun e => by rw [e] at hyy; simp at hyy
      simpa using this
    exact List.mem_map.1 this
  rw [List.map_append, List.map_cons, List.pairwise_append, List.pairwise_cons] at h2'
  refine ⟨p.1, (h3' p (by simp)).2 x (by rw [hpset]; exact hx),
    fun y hyy => (h3' p (by simp)).2 y (by rw [hpset]; exact hyy), ?_, ?_⟩
  · intro set' hs y hyy
    obtain ⟨r, hr1, rfl⟩ := hin l1 p1 hp1 set' hs y hyy
    exact ⟨r.1, h2'.2.2 r.1 (List.mem_map.2 ⟨r, hr1, rfl⟩) p.1 (by simp),
      (h3' r (by simp [hr1])).2 y hyy⟩
  · intro set' hs y hyy
    obtain ⟨r, hr1, rfl⟩ := hin l2 p3 hp3 set' hs y hyy
    exact ⟨r.1, h2'.2.1.1 r.1 (List.mem_map.2 ⟨r, hr1, rfl⟩), (h3' r (by simp [hr1])).2 y hyy⟩

theorem precedes_of (hr : Reach E a s0 abs h s pc) (hE : Keeps E (fun s => s.queue))
    (hseg : InOnePass h seg) {x y : α}
    (hlt : ∀ i j, At s0.queue i x → At s0.queue j y → i < j) : Precedes x y (yields seg) := by
  intro l1 set l2 e hy
  obtain ⟨i, k1, k2, _, k4⟩ := segment_at hr hE hseg e hy
  refine ⟨fun hx => Nat.lt_irrefl _ (hlt i i (k2 x hx) k1), fun set' hs hx => ?_⟩
  obtain ⟨j, hj, hjx⟩ := k4 set' hs x hx
  have := hlt j i hjx k1
  omega

theorem notApart_of (hr : Reach E a s0 abs h s pc) (hE : Keeps E (fun s => s.queue))
    (hseg : InOnePass h seg) {x y : α}
    (heq : ∀ i j, At s0.queue i x → At s0.queue j y → i = j) : NotApart x y (yields seg) := by
  intro l1 set l2 e hx set' hs hy
  obtain ⟨i, k1, _, k3, k4⟩ := segment_at hr hE hseg e hx
  rcases List.mem_append.1 hs with hs | hs
  · obtain ⟨j, hj, hjx⟩ := k3 set' hs y hy
    have := heq i j k1 hjx
    omega
  · obtain ⟨j, hj, hjx⟩ := k4 set' hs y hy
    have := heq i j k1 hjx
    omega

/-- What a run sees of a scheduler with structural conditions. -/
theorem prepared_sys (hp : Prepared cyc g0 ops g w) (hs : w.sys = .ok s0) :
    s0 = { w.rest with graph := g, queue := queueOf g, conds := w.stack.cset.basic,
                       store := w.stack.cset.store } ∧ Dict.WF g := by
  obtain ⟨st, ow, hq⟩ := hp.quiet
  obtain ⟨k1, k2, _⟩ := C32_composition_partial .standard (baseGraph g0) st ow ops w.stack hq hp.oneOwner
  rw [hp.shows] at k1 k2
  simp only [Whole.sys, k1, k2, onGraph, Except.ok.injEq] at hs
  exact ⟨hs.symm, (composed_builtIn _ hp.builtIn (baseGraph_wf g0) hp.shows).1⟩

/-- A node that is in the queue of a graph is only there if the graph has no cycle. -/
theorem acyclic_of_at {g : Graph α} (hw : Dict.WF g) {i : Nat} {x : α} (hx : At (queueOf g) i x) :
    ¬ HasCycle g := by
  rcases toposort_spec g hw with ⟨ls, _, _, _, _, h5⟩ | ⟨h1, _⟩
  · exact h5
  · unfold queueOf at hx
    rw [h1] at hx
    obtain ⟨l, hl, hm⟩ := hx
    cases i with
    | zero => simp at hl; subst hl; cases hm
    | succ i => simp at hl

/-- C77: whatever structural conditions there are, a sender in the resulting graph is
never selected together with or after one of its receivers in the same pass. -/
theorem C77_senders_first (hp : Prepared cyc g0 ops g w) (hs : w.sys = .ok s0)
    (hr : Reach E a s0 abs h s pc) (hE : Keeps E (fun s => s.queue)) (hseg : InOnePass h seg)
    {x y : α} (he : Edge g x y) (hne : x ≠ y) : Precedes x y (yields seg) := by
  obtain ⟨e, hw⟩ := prepared_sys hp hs
  have hq : s0.queue = queueOf g := by rw [e]
  refine precedes_of hr hE hseg (fun i j hi hj => ?_)
  rw [hq] at hi hj
  exact edge_earlier hw (acyclic_of_at hw hi) he hne hi hj

/-- The last structural condition acts on the graph made by the others. -/
theorem last_value {es : List (α × SCond α)} {owner : α} {o : OId} {d : GSC α}
    (hp : Prepared cyc g0 ops g w) (hl : present ops = es ++ [(owner, d.toSCond cyc o)])
    (hc : owner ∉ d.nodes) : ∃ g1 t, composed (baseGraph g0) es = .ok g1 ∧ Dict.WF g1 ∧
      Dict.keys g1 = Dict.keys (baseGraph g0) ∧
      d.modifyGraph cyc owner (HG.load g1) = .ok t ∧ g = t.value := by
  have h := hp.shows
  rw [hl] at h
  obtain ⟨g1, h1, h2⟩ := composed_split _ _ h
  obtain ⟨k1, k2, _⟩ := composed_builtIn es
    (fun e he => hp.builtIn e (by rw [hl]; exact List.mem_append_left _ he)) (baseGraph_wf g0) h1
  simp only [composed, GSC.toSCond, GSC.onValue] at h2
  cases e : d.modifyGraph cyc owner (HG.load g1) with
  | error e' => rw [e] at h2; cases h2
  | ok t => rw [e] at h2; cases h2; exact ⟨g1, t, h1, k1, k2, e, rfl⟩

/-- C77: with `AfterNodes` as the last structural condition, its owner is selected in a
pass only when no subject will be selected any more. -/
theorem C77_after {es : List (α × SCond α)} {owner : α} {o : OId} (c : OpCond α)
    (hp : Prepared cyc g0 ops g w)
    (hl : present ops = es ++ [(owner, (GSC.reposition c).toSCond cyc o)])
    (hk : c.kind = .after) (hc : Constructible c owner) (hs : w.sys = .ok s0)
    (hr : Reach E a s0 abs h s pc) (hE : Keeps E (fun s => s.queue)) (hseg : InOnePass h seg) :
    ∀ n ∈ c.nodes, Precedes n owner (yields seg) := by
  intro n hn
  obtain ⟨g1, t, _, hw, _, ht, rfl⟩ := last_value hp hl hc.apart
  have := C37_after cyc c owner (HG.load g1) t (HG.load_ok hw) hk hc ht n hn
  exact C77_senders_first hp hs hr hE hseg this.1 (fun e => hc.apart (e ▸ hn))

/-- C77: with `BeforeNodes` as the last structural condition, its owner is not selected
in a pass any more once a subject is (except with the options of `C36_edge_lost`). -/
theorem C77_before {es : List (α × SCond α)} {owner : α} {o : OId} (c : OpCond α)
    (hp : Prepared cyc g0 ops g w)
    (hl : present ops = es ++ [(owner, (GSC.reposition c).toSCond cyc o)])
    (hk : c.kind = .before) (hc : Constructible c owner)
    (ha : (c.ownerSenders ≠ .keep ∨ ∀ n ∈ c.nodes, c.subjectSenders n ≠ .replace) ∨
      (c.removeSelf = false ∧ c.prune = false)) (hs : w.sys = .ok s0)
    (hr : Reach E a s0 abs h s pc) (hE : Keeps E (fun s => s.queue)) (hseg : InOnePass h seg) :
    ∀ n ∈ c.nodes, Precedes owner n (yields seg) := by
  intro n hn
  obtain ⟨g1, t, _, hw, _, ht, rfl⟩ := last_value hp hl hc.apart
  have := C36_before_partial cyc c owner (HG.load g1) t (HG.load_ok hw) hk hc ha ht n hn
  exact C77_senders_first hp hs hr hE hseg this.1 (fun e => hc.apart (e.symm ▸ hn))

/-- C77: with `WithNode` as the last structural condition, its owner and its subject are
never in different sets of a pass (if the graph made by the conditions before has no
self-edge at the two). -/
theorem C77_with {es : List (α × SCond α)} {owner n : α} {o : OId} (c : OpCond α)
    (hp : Prepared cyc g0 ops g w)
    (hl : present ops = es ++ [(owner, (GSC.reposition c).toSCond cyc o)])
    (hk : c.kind = .withNode) (hc : Constructible c owner) (hn : c.nodes = [n])
    (hse : ∀ g1, composed (baseGraph g0) es = .ok g1 → ¬ Edge g1 owner owner ∧ ¬ Edge g1 n n)
    (hs : w.sys = .ok s0)
    (hr : Reach E a s0 abs h s pc) (hE : Keeps E (fun s => s.queue)) (hseg : InOnePass h seg) :
    NotApart owner n (yields seg) := by
  obtain ⟨g1, t, hg1, hw, _, ht, rfl⟩ := last_value hp hl hc.apart
  obtain ⟨so, sn⟩ := hse g1 hg1
  obtain ⟨e, hw'⟩ := prepared_sys hp hs
  have hq : s0.queue = queueOf t.value := by rw [e]
  have := (C38_with cyc c owner (HG.load g1) t (HG.load_ok hw) hk hc n hn
    (by rw [HG.load_value]; exact so) (by rw [HG.load_value]; exact sn) ht).2
  refine notApart_of hr hE hseg (fun i j hi hj => ?_)
  rw [hq] at hi hj
  have hcy := acyclic_of_at hw' hi
  have hj' := (this hcy j).2 hj
  have a1 := (queue_at hw' hcy i owner).1 hi
  have a2 := (queue_at hw' hcy j owner).1 hj'
  rcases Nat.lt_trichotomy i j with hlt | rfl | hlt
  · exact absurd (chain_mono a2.1 (by omega)) a1.2
  · rfl
  · exact absurd (chain_mono a1.1 (by omega)) a2.2

/-- C77: with `AddEdgeTo` (or `add_graph_edge`) last, the owner precedes the subject. -/
theorem C77_add_edge {es : List (α × SCond α)} {owner n : α} {o : OId}
    (hp : Prepared cyc g0 ops g w)
    (hl : present ops = es ++ [(owner, (GSC.addEdgeTo n).toSCond cyc o)]) (hne : owner ≠ n)
    (hs : w.sys = .ok s0)
    (hr : Reach E a s0 abs h s pc) (hE : Keeps E (fun s => s.queue)) (hseg : InOnePass h seg) :
    Precedes owner n (yields seg) := by
  obtain ⟨g1, t, _, hw, _, ht, rfl⟩ := last_value hp hl (by simpa [GSC.nodes] using hne)
  obtain ⟨i1, i2⟩ := GSC.inGraph_of_ok ht
  obtain ⟨g', e1, _, _, e4⟩ := (addEdge_value cyc hw owner n).1
    ⟨by rw [← HG.keys_load]; exact i1, by rw [← HG.keys_load]; exact i2 n (by simp [GSC.nodes])⟩
  unfold GSC.onValue at e1
  rw [ht] at e1; cases e1
  exact C77_senders_first hp hs hr hE hseg ((e4 owner n).2 (.inr ⟨rfl, rfl⟩)) hne

/-- A closed acyclic graph without self-edges gives a default schedule. -/
theorem defaultSched_of (hw : Dict.WF g) (hcl : Closed g) (hc : ¬ HasCycle g) (hse : ∀ n, ¬ Edge g n n)
    (hq : s.queue = queueOf g) (hg : s.graph = g) (hn : s.nodes = Dict.keys g) (hcd : s.conds = []) :
    DefaultSched s := by
  obtain ⟨ls, h1, h2, h3, h4, _⟩ | ⟨_, h⟩ := toposort_spec g hw
  case inr => exact absurd h hc
  have e : queueOf g = ls := by unfold queueOf; rw [h1]
  have hk : ∀ n, n ∈ ls.flatten ↔ n ∈ Dict.keys g := by
    intro n
    rw [mem_flatten_at]
    constructor
    · rintro ⟨i, hi⟩
      rcases chain_isNode ((h3 i n).1 hi).1 with hn | ⟨p, hp, hn⟩
      · exact (key_iff g n).2 hn
      · exact hcl n p.1 ⟨p, hp, rfl, hn⟩
    · intro hn
      obtain ⟨i, _, h⟩ := chain_max _ (show ChainTo g 0 n from .inl ((key_iff g n).1 hn)) (h4 n)
      exact ⟨i, (h3 i n).2 h⟩
  refine ⟨?_, ?_, ?_, ?_, ?_, ?_⟩
  · rw [hq, e]; exact fun l hl => (h2 l hl).1
  · rw [hq, e]
    unfold List.Nodup
    rw [List.pairwise_flatten]
    refine ⟨fun l hl => (h2 l hl).2, ?_⟩
    rw [List.pairwise_iff_getElem]
    intro i j hi hj hij n hn m hm
    rintro rfl
    have a1 := (h3 i n).1 ⟨_, List.getElem?_eq_getElem hi, hn⟩
    have a2 := (h3 j n).1 ⟨_, List.getElem?_eq_getElem hj, hm⟩
    have := chain_max_unique a1.1 a1.2 a2.1 a2.2
    omega
  · intro n; rw [hq, e, hn, hk]
  · intro j n hj
    rw [hq, e] at hj
    obtain ⟨deps, hd⟩ := Option.isSome_iff_exists.1 (Dict.get?_isSome.2 ((hk n).1 (At.mem hj)))
    rw [hg]
    refine ⟨deps, hd, fun d hdd => ?_⟩
    have he : Edge g d n := (edge_iff_get? hw _ _).2 ⟨deps, hd, hdd⟩
    have hne : d ≠ n := by rintro rfl; exact hse _ he
    obtain ⟨i, hi⟩ := exists_at ((hk d).2 (hcl d n he))
    refine ⟨i, edge_earlier hw hc he hne (by rw [e]; exact hi) (by rw [e]; exact hj), ?_⟩
    rw [hq, e]; exact hi
  · intro n _; left; rw [hcd]; rfl
  · rw [hcd]; exact fun p hp => absurd hp (List.not_mem_nil)

/-- All senders in the base graph are keys. -/
theorem baseGraph_closed (hw : Dict.WF g0) : Closed (baseGraph g0) := by
  intro x r he
  obtain ⟨p, hp, _, hx⟩ := (baseGraph_edge g0 hw x r).1 he
  exact (baseGraph_keys g0 hw x).2 (.inr ⟨p, hp, hx⟩)

/-- C77: a scheduler with structural conditions of built-in classes and no basic
conditions, the default termination conditions.  If the graph the structural conditions
make is acyclic and has no self-edges, then, whatever runs were begun, completed or
abandoned before, a run yields exactly the layers of that graph and returns. -/
theorem C77_default_schedule {log gs} (hw : Dict.WF g0) (hp : Prepared cyc g0 ops g w)
    (id : Option κ) (unit : Rat) (wd : World α κ W) (hrest : w.rest = Sys.new g0 .standard id unit wd)
    (hb : w.stack.cset.basic = []) (hs : w.sys = .ok s0) (hc : ¬ HasCycle g) (hse : ∀ n, ¬ Edge g n n)
    (hl : Life ClockUse s0 log s gs) (ha : DefaultTermination a)
    (ho : ∀ c ∈ a.others, c.isAbsolute = false) (hk : CanBegin a s) :
    (∃ k h s', exec s a k = some (false, h, s', .returned) ∧ yields h = queueOf g) ∧
    ∀ n, n ∈ (queueOf g).flatten ↔ IsNode g0 n := by
  obtain ⟨e, hwf⟩ := prepared_sys hp hs
  obtain ⟨_, hkeys, hcl⟩ := composed_builtIn _ hp.builtIn (baseGraph_wf g0) hp.shows
  have hn : s0.nodes = Dict.keys g := by rw [e, hkeys]; show w.rest.nodes = _; rw [hrest]; rfl
  have hd : DefaultSched s0 := defaultSched_of hwf (hcl (baseGraph_closed hw)) hc hse
    (by rw [e]) (by rw [e]) hn (by rw [e]; exact hb)
  have hcl0 : ∀ i, s0.clock i = Clock.new := by
    intro i
    have : s0.clocks = [(id, Clock.new)] := by rw [e]; show w.rest.clocks = _; rw [hrest]; rfl
    unfold View.clock
    rw [this]
    simp only [Dict.get?]
    by_cases hi : id = i <;> simp [hi]
  have hsy : Synced s0 := by
    have := Sys.new_synced g0 .standard id unit wd
    rw [← hrest] at this
    rw [e]; exact this
  obtain ⟨h1, h2, h3, h4, h5, h6⟩ := hl.default hd (fun i => ⟨[], by rw [hcl0]; exact .new⟩) hsy
  obtain ⟨ls, ht, _⟩ | ⟨_, h⟩ := toposort_spec g hwf
  case inr => exact absurd h hc
  obtain ⟨s1, hs1⟩ := h1.start h3 (by rw [h5, e]; exact ht) ha ho hk
  obtain ⟨lg, hlg⟩ := h2 a.id
  obtain ⟨k, h, s', e1, e2⟩ := whole_returns h1 ha hlg hs1
  refine ⟨⟨k, h, s', e1, by rw [e2, h4, e]⟩, fun n => ?_⟩
  have := hd.mem n
  rw [hn, hkeys, baseGraph_keys g0 hw] at this
  rw [← this, e]

/-! ## Examples -/

/-- Edges 0 → 1 → 2 and 0 → 3. -/
def placedGraph : Graph Nat := [(1, [0]), (2, [1]), (3, [0])]

/-- Two structural conditions, the second one `d` for `owner`, and reads. -/
def placedOps (d : GSC Nat) (owner : Nat) : List (SchedOp Nat Nat Unit) :=
  [.add 0 (.structural ((GSC.addEdgeTo 2).toSCond (fun _ => []) 30)), .graph,
   .add owner (.structural (d.toSCond (fun _ => []) 31)), .queue]

/-- A scheduler on which that was done. -/
def placedWhole (d : GSC Nat) (owner : Nat) : Whole Nat Nat Unit :=
  { stack := afterOps (Stack.new .standard (baseGraph placedGraph) noOwners (fun _ => none))
      (placedOps d owner)
    rest := Sys.new placedGraph .standard none 1 demoWorld }

theorem placed_oneOwner (d : GSC Nat) (owner : Nat) :
    OneOwner ((placedOps d owner).flatMap SchedOp.adds) := by
  intro e he f hf h
  simp only [placedOps, List.flatMap_cons, List.flatMap_nil, SchedOp.adds, structEntries,
    List.append_nil, List.nil_append, List.cons_append, List.mem_cons, List.not_mem_nil,
    or_false] at he hf
  rcases he with rfl | rfl <;> rcases hf with rfl | rfl <;>
    first | rfl | (simp [GSC.toSCond] at h)

theorem placed_present (d : GSC Nat) (owner : Nat) : present (placedOps d owner) =
    [(0, (GSC.addEdgeTo 2).toSCond (fun _ => []) 30)] ++ [(owner, d.toSCond (fun _ => []) 31)] := rfl

theorem placed_prepared (d : GSC Nat) (owner : Nat) (g : Graph Nat)
    (h1 : noneRaises (Stack.new .standard (baseGraph placedGraph) noOwners (fun _ => none))
      (placedOps d owner) = true) (h2 : owner ∉ d.nodes)
    (h3 : composed (baseGraph placedGraph) (present (placedOps d owner)) = .ok g) :
    Prepared (fun _ => []) placedGraph (placedOps d owner) g (placedWhole d owner) :=
  ⟨⟨_, _, quiet_of _ _ h1⟩, placed_oneOwner d owner, by
    intro e he
    rw [placed_present] at he
    simp only [List.cons_append, List.nil_append, List.mem_cons, List.not_mem_nil, or_false] at he
    rcases he with rfl | rfl
    · exact ⟨_, rfl, by decide⟩
    · exact ⟨_, rfl, h2⟩, h3⟩

/-- What a run sees of it. -/
def placedSys (d : GSC Nat) (owner : Nat) (g : Graph Nat) : Sys Nat Nat Unit :=
  { (placedWhole d owner).rest with
    graph := g, queue := queueOf g, conds := (placedWhole d owner).stack.cset.basic,
    store := (placedWhole d owner).stack.cset.store }

theorem placed_sys (d : GSC Nat) (owner : Nat) (g : Graph Nat)
    (h1 : (placedWhole d owner).stack.readGraph.2 = .ok g)
    (h2 : (placedWhole d owner).stack.readQueue.2 = .ok (queueOf g)) :
    (placedWhole d owner).sys = .ok (placedSys d owner g) := by
  simp only [Whole.sys, h1, h2]
  rfl

/-- `AfterNodes(3)` with the default options. -/
def afterThree : OpCond Nat := { gscAfter with nodes := [3] }

/-- `WithNode(2)` with the default options. -/
def withTwo : OpCond Nat :=
  { kind := .withNode, nodes := [2], ownerSenders := .merge, ownerReceivers := .keep,
    subjectSenders := fun _ => .merge, subjectReceivers := fun _ => .keep }

/-- The hypotheses of `C77_before` and `C77_default_schedule`: node 3 with
`BeforeNodes(1)`. -/
example : ∃ h s pc,
    Prepared (fun _ => []) placedGraph (placedOps (.reposition gscBefore) 3)
      [(0, []), (1, [0, 3]), (2, [1, 0]), (3, [0])] (placedWhole (.reposition gscBefore) 3) ∧
    (placedWhole (.reposition gscBefore) 3).sys =
      .ok (placedSys (.reposition gscBefore) 3 [(0, []), (1, [0, 3]), (2, [1, 0]), (3, [0])]) ∧
    Reach (fun _ _ => False) demoArgs
      (placedSys (.reposition gscBefore) 3 [(0, []), (1, [0, 3]), (2, [1, 0]), (3, [0])]) false h s pc ∧
    yields (currentPass h) = [[0], [3], [1], [2]] ∧
    (placedWhole (.reposition gscBefore) 3).stack.cset.basic.length = 0 :=
  ⟨_, _, _, placed_prepared _ _ _ (by decide +kernel) (by decide) (by decide +kernel),
    placed_sys _ _ _ (by decide +kernel) (by decide +kernel),
    run_reach (by decide +kernel) _ 40, by decide +kernel, by decide +kernel⟩

/-- The hypotheses of `C77_after`: node 1 with `AfterNodes(3)`. -/
example : ∃ g h s pc,
    Prepared (fun _ => []) placedGraph (placedOps (.reposition afterThree) 1) g
      (placedWhole (.reposition afterThree) 1) ∧
    (placedWhole (.reposition afterThree) 1).sys = .ok (placedSys (.reposition afterThree) 1 g) ∧
    Reach (fun _ _ => False) demoArgs (placedSys (.reposition afterThree) 1 g) false h s pc ∧
    yields (currentPass h) = [[0], [3], [1], [2]] ∧ Constructible afterThree 1 :=
  ⟨[(0, []), (1, [0, 3]), (2, [1, 0]), (3, [0])], _, _, _,
    placed_prepared _ _ _ (by decide +kernel) (by decide) (by decide +kernel),
    placed_sys _ _ _ (by decide +kernel) (by decide +kernel),
    run_reach (by decide +kernel) _ 40, by decide +kernel, ⟨by decide, fun h => by cases h⟩⟩

/-- The hypotheses of `C77_with`: node 3 with `WithNode(2)`. -/
example : ∃ g h s pc,
    Prepared (fun _ => []) placedGraph (placedOps (.reposition withTwo) 3) g
      (placedWhole (.reposition withTwo) 3) ∧
    (placedWhole (.reposition withTwo) 3).sys = .ok (placedSys (.reposition withTwo) 3 g) ∧
    Reach (fun _ _ => False) demoArgs (placedSys (.reposition withTwo) 3 g) false h s pc ∧
    yields (currentPass h) = [[0], [1], [2, 3]] ∧ Constructible withTwo 3 :=
  ⟨[(0, []), (1, [0]), (2, [0, 1]), (3, [0, 1])], _, _, _,
    placed_prepared _ _ _ (by decide +kernel) (by decide) (by decide +kernel),
    placed_sys _ _ _ (by decide +kernel) (by decide +kernel),
    run_reach (by decide +kernel) _ 40, by decide +kernel, ⟨by decide, fun _ => ⟨2, rfl, rfl, rfl⟩⟩⟩

/-- The hypotheses of `C77_add_edge`: an edge from 3 to 1. -/
example : ∃ g h s pc,
    Prepared (fun _ => []) placedGraph (placedOps (.addEdgeTo 1) 3) g (placedWhole (.addEdgeTo 1) 3) ∧
    (placedWhole (.addEdgeTo 1) 3).sys = .ok (placedSys (.addEdgeTo 1) 3 g) ∧
    Reach (fun _ _ => False) demoArgs (placedSys (.addEdgeTo 1) 3 g) false h s pc ∧
    yields (currentPass h) = [[0], [3], [1], [2]] :=
  ⟨[(0, []), (1, [0, 3]), (2, [1, 0]), (3, [0])], _, _, _,
    placed_prepared _ _ _ (by decide +kernel) (by decide) (by decide +kernel),
    placed_sys _ _ _ (by decide +kernel) (by decide +kernel),
    run_reach (by decide +kernel) _ 40, by decide +kernel⟩

end GS.Props
