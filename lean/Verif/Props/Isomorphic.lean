import Verif.Props.RenameStack
import Verif.Props.Restate
/-!
# C82, C111, C112: other names and another order at once

The names of nodes decide in which order Python sets list them.  So a scheduler whose nodes are
given other names is in general the renamed scheduler *written in another order*.
-/

set_option linter.unusedSectionVars false

namespace GS.Props
open Spec
variable {α β κ W : Type _} [DecidableEq α] [DecidableEq β] [DecidableEq κ]

/-! ## New names for some nodes are part of a renaming -/

/-- Exchange `x` and `y`. -/
def exchange (x y : α) : Renaming α α :=
  have inv : ∀ z, (if (if z = x then y else if z = y then x else z) = x then y
      else if (if z = x then y else if z = y then x else z) = y then x
      else (if z = x then y else if z = y then x else z)) = z := by
    intro z; grind
  ⟨fun z => if z = x then y else if z = y then x else z,
    fun z => if z = x then y else if z = y then x else z, inv, inv⟩

def compose (r s : Renaming α α) : Renaming α α :=
  ⟨fun x => s.to (r.to x), fun x => r.back (s.back x), fun x => by rw [s.back_to, r.back_to],
    fun x => by rw [r.to_back, s.to_back]⟩

/-- C112: if the nodes of a graph (or any finite number of nodes) are given other names, no two of
them the same, these new names are part of a renaming. -/
theorem C112_names (f : α → α) (l : List α) : (∀ x ∈ l, ∀ y ∈ l, f x = f y → x = y) →
    ∃ r : Renaming α α, ∀ x ∈ l, r.to x = f x := by
  induction l with
  | nil => intro _; exact ⟨⟨id, id, fun _ => rfl, fun _ => rfl⟩, fun _ h => absurd h List.not_mem_nil⟩
  | cons x l ih =>
    intro h
    obtain ⟨r, hr⟩ := ih fun a ha b hb => h a (List.mem_cons_of_mem _ ha) b (List.mem_cons_of_mem _ hb)
    refine ⟨compose r (exchange (r.to x) (f x)), fun z hz => ?_⟩
    show (if r.to z = r.to x then f x else if r.to z = f x then r.to x else r.to z) = f z
    by_cases e : z = x
    · subst e; simp
    · have hz' : z ∈ l := (List.mem_cons.1 hz).resolve_left e
      have e1 : r.to z ≠ r.to x := fun k => e (r.inj.1 k)
      have e2 : r.to z ≠ f x := by
        rw [hr z hz']
        exact fun k => e (h z hz x List.mem_cons_self k)
      rw [if_neg e1, if_neg e2, hr z hz']

/-- Names 0, 1, 2 become 1, 2, 7. -/
example := C112_names (fun n => if n = 2 then 7 else n + 1) [0, 1, 2] (by decide)

/-! ## Basic conditions -/

section
variable {a a' : RunArgs α κ W} {abs abs' : Bool} {s0 s0' s s' t : Sys α κ W}
variable {t' : Sys β κ W} {pc : PC α} {pc' : PC β} {h : History α κ W} {h' : History β κ W}
variable {w : List (List α) → World α κ W} {runs runs' : List (List (List (List α)))}

/-- C82 with C83: two schedulers that are the same but for the names of the nodes and for the
order in which nodes, senders and conditions are written (`s0'` has the order of the second
scheduler and the names of the first).  At every position their runs yield sets whose members
correspond. -/
theorem C82_isomorphic (r : Renaming α β) (hb : SameBefore w s0 s0' runs runs' a a' s s')
    (hr : Scripted w a s abs h t pc)
    (hr' : Scripted (renameConsumer r w) (renameArgs r a') (renameSys r s') abs' h' t' pc') :
    abs' = abs ∧
    (∀ (k : Nat) (x : List α) (y : List β), (yields h)[k]? = some x → (yields h')[k]? = some y →
      ∀ n, n ∈ x ↔ r.to n ∈ y) ∧
    (pc = .returned → (yields h').length ≤ (yields h).length) ∧
    (pc' = .returned → (yields h).length ≤ (yields h').length) := by
  obtain ⟨h1, t1, p1, k, rfl, rfl, rfl⟩ := (C82_run (h := h) (s := t) (pc := pc) r).2 h' t' pc' hr'
  obtain ⟨k1, k2, k3, k4⟩ := C83_yields hb hr k
  rw [yields_rename]
  have e : (renameSets r (yields h1)).length = (yields h1).length := List.length_map _
  rw [e]
  refine ⟨k1, fun i x y hx hy n => ?_, k3, fun hp => k4 (by cases p1 <;> first | rfl | cases hp)⟩
  unfold renameSets at hy
  rw [List.getElem?_map] at hy
  obtain ⟨y0, hy0, rfl⟩ := Option.map_eq_some_iff.1 hy
  rw [k2 i x y0 hx hy0 n, ← r.mem]

end

/-! ## Structural conditions -/

section
variable (r : Renaming α β)

theorem structEntries_rename (es : Entries α κ W) :
    structEntries (es.map fun p => (r.to p.1, renameAny r p.2)) =
      (structEntries es).map fun p => (r.to p.1, renameSCond r p.2) := by
  induction es with
  | nil => rfl
  | cons p es ih =>
    obtain ⟨n, c⟩ := p
    cases c with
    | basic c => exact ih
    | structural c => exact congrArg ((r.to n, renameSCond r c) :: ·) ih

theorem listed_rename (d : Dict α (List (AnyCond α κ W))) :
    listed (renameDict r (List.map (renameAny r)) d) =
      (listed d).map fun p => (r.to p.1, renameAny r p.2) := by
  unfold listed renameDict
  induction d with
  | nil => rfl
  | cons p d ih =>
    rw [List.map_cons, List.flatMap_cons, List.flatMap_cons, List.map_append, ih]
    congr 1
    show List.map _ (List.map _ _) = _
    rw [List.map_map, List.map_map]
    rfl

theorem adds_rename (op : SchedOp α κ W) :
    (renameOp r op).adds = op.adds.map fun p => (r.to p.1, renameSCond r p.2) := by
  cases op with
  | add n c => exact structEntries_rename r [(n, c)]
  | addSet d =>
    show structEntries (listed _) = _
    rw [listed_rename, structEntries_rename]; rfl
  | _ => rfl

theorem eraseFirst_rename (o : OId) (es : List (α × SCond α)) :
    eraseFirst o (es.map fun p => (r.to p.1, renameSCond r p.2)) =
      (eraseFirst o es).map fun p => (r.to p.1, renameSCond r p.2) := by
  induction es with
  | nil => rfl
  | cons p es ih =>
    obtain ⟨n, c⟩ := p
    rw [List.map_cons]
    unfold eraseFirst
    show (if c.o = o then _ else _) = _
    by_cases e : c.o = o
    · rw [if_pos e, if_pos e]
    · rw [if_neg e, if_neg e, ih]; rfl

theorem present_rename (ops : List (SchedOp α κ W)) :
    present (ops.map (renameOp r)) = (present ops).map fun p => (r.to p.1, renameSCond r p.2) := by
  unfold present
  suffices h : ∀ es : List (α × SCond α), (ops.map (renameOp r)).foldl SchedOp.effect
      (es.map fun p => (r.to p.1, renameSCond r p.2)) =
      (ops.foldl SchedOp.effect es).map fun p => (r.to p.1, renameSCond r p.2) from h []
  induction ops with
  | nil => intro es; rfl
  | cons op ops ih =>
    intro es
    rw [List.map_cons, List.foldl_cons, List.foldl_cons, ← ih]
    congr 1
    have app : es.map (fun p => (r.to p.1, renameSCond r p.2)) ++ (renameOp r op).adds =
        (es ++ op.adds).map fun p => (r.to p.1, renameSCond r p.2) := by
      rw [List.map_append, adds_rename]
    cases op with
    | remove c =>
      cases c with
      | basic c => exact app
      | structural c => exact eraseFirst_rename r c.o es
    | _ => exact app

theorem oneOwner_rename {es : List (α × SCond α)} (h : OneOwner es) :
    OneOwner (es.map fun p => (r.to p.1, renameSCond r p.2)) := by
  intro e he f hf k
  obtain ⟨e0, he0, rfl⟩ := List.mem_map.1 he
  obtain ⟨f0, hf0, rfl⟩ := List.mem_map.1 hf
  rw [h e0 he0 f0 hf0 k]

theorem flatMap_adds_rename (ops : List (SchedOp α κ W)) :
    (ops.map (renameOp r)).flatMap SchedOp.adds =
      (ops.flatMap SchedOp.adds).map fun p => (r.to p.1, renameSCond r p.2) := by
  induction ops with
  | nil => rfl
  | cons op ops ih =>
    rw [List.map_cons, List.flatMap_cons, List.flatMap_cons, List.map_append, ih, adds_rename]

theorem quiet_rename {s t : Stack α κ W} {ops : List (SchedOp α κ W)} (h : Spec.Quiet s ops t) :
    Spec.Quiet (renameStack r s) (ops.map (renameOp r)) (renameStack r t) := by
  induction h with
  | nil s => exact .nil _
  | @cons s s' t op ops hc _ ih =>
    refine .cons ?_ ih
    rw [call_rename, hc]; rfl

theorem gsc_back (d : GSC α) : renameGSC r.symm (renameGSC r d) = d := by
  cases d with
  | reposition c =>
    unfold renameGSC renameOpCond
    simp only [Renaming.symm, r.back_to]
    have := r.map_back c.nodes
    rw [this]
  | addEdgeTo n => exact congrArg GSC.addEdgeTo (r.back_to n)
  | removeEdgeFrom n => exact congrArg GSC.removeEdgeFrom (r.back_to n)

theorem areConditions_back {cyc' : Graph β → List (List β)} {es : List (β × SCond β)} :
    ∀ {ds : List (α × GSC α)}, AreConditions cyc' es (ds.map fun p => (r.to p.1, renameGSC r p.2)) →
      AreConditions (renameCyc r.symm cyc')
        (es.map fun p => (r.symm.to p.1, renameSCond r.symm p.2)) ds := by
  induction es with
  | nil =>
    intro ds h
    cases ds with
    | nil => exact .nil
    | cons d ds => cases h
  | cons e es ih =>
    intro ds h
    cases ds with
    | nil => cases h
    | cons d ds =>
      obtain ⟨n, d⟩ := d
      rw [List.map_cons] at h
      cases h with
      | cons _ _ o h =>
        have k := AreConditions.cons (cyc := renameCyc r.symm cyc') n d o (ih h)
        rw [List.map_cons]
        have e1 : r.symm.to (r.to n) = n := r.back_to n
        show AreConditions _ ((r.symm.to (r.to n), renameSCond r.symm ((renameGSC r d).toSCond cyc' o)) :: _) _
        rw [e1, toSCond_rename, gsc_back]
        exact k

end

theorem isNode_rename (r : Renaming α β) (g : Graph α) (n : α) :
    IsNode (renameGraph r g) (r.to n) ↔ IsNode g n := by
  unfold IsNode
  constructor
  · rintro (⟨q, hq, h⟩ | ⟨q, hq, h⟩) <;> obtain ⟨p, hp, rfl⟩ := List.mem_map.1 hq
    · exact .inl ⟨p, hp, r.inj.1 h⟩
    · exact .inr ⟨p, hp, r.mem.1 h⟩
  · rintro (⟨p, hp, rfl⟩ | ⟨p, hp, h⟩)
    · exact .inl ⟨_, List.mem_map_of_mem hp, rfl⟩
    · exact .inr ⟨_, List.mem_map_of_mem hp, r.mem.2 h⟩

theorem sameGraph_back (r : Renaming α β) {g : Graph α} {g' : Graph β}
    (h : SameGraph (renameGraph r g) g') : SameGraph g (renameGraph r.symm g') := by
  constructor
  · intro n
    rw [← isNode_rename r, h.nodes, ← isNode_rename r.symm]
    show IsNode _ (r.back (r.to n)) ↔ _
    rw [r.back_to]
  · intro x y
    rw [← (C112_graph r g).2, h.edges, ← (C112_graph r.symm g').2]
    show Edge _ (r.back (r.to x)) (r.back (r.to y)) ↔ _
    rw [r.back_to, r.back_to]

theorem wf_rename (r : Renaming α β) {g : Graph α} (h : Dict.WF g) : Dict.WF (renameGraph r g) := by
  unfold Dict.WF at h ⊢
  rw [keys_rename]
  exact List.pairwise_map.2 (h.imp fun hne e => hne (r.inj.1 e))

section
variable (r : Renaming α β)

theorem renameFunc_back (f : View α κ W → Option κ → Option α → Except Err Bool) :
    renameFunc r.symm (renameFunc r f) = f := by
  funext v id o
  have e := renameView_back r v
  have e2 := option_back r o
  show f (renameView r.symm (renameView r v)) id ((o.map r.to).map r.back) = _
  rw [e, e2]

theorem renameLeaf_back (k : Leaf α κ W) : renameLeaf r.symm (renameLeaf r k) = k := by
  have h1 : ∀ x, r.symm.to (r.to x) = x := r.back_to
  have h2 : ∀ l : List α, (l.map r.to).map r.symm.to = l := r.map_back
  cases k <;> simp only [renameLeaf, h1, h2, renameFunc_back]

mutual
theorem renameCond_back : ∀ c : Cond α κ W, renameCond r.symm (renameCond r c) = c
  | .leaf o k => by simp only [renameCond, renameLeaf_back]
  | .whileNot o f => by simp only [renameCond, renameFunc_back]
  | .all o cs => by simp only [renameCond, renameConds_back cs]
  | .any o cs => by simp only [renameCond, renameConds_back cs]
  | .not o c => by simp only [renameCond, renameCond_back c]
  | .nwhen o c n => by simp only [renameCond, renameCond_back c]
theorem renameConds_back : ∀ cs : List (Cond α κ W), renameConds r.symm (renameConds r cs) = cs
  | [] => rfl
  | c :: cs => by simp only [renameConds, renameCond_back c, renameConds_back cs]
end

mutual
theorem bare_rename : ∀ c : Cond α κ W, bare (renameCond r c) = renameCond r (bare c)
  | .leaf o k => rfl
  | .whileNot o f => rfl
  | .all o cs => by simp only [renameCond, bare, bares_rename cs]
  | .any o cs => by simp only [renameCond, bare, bares_rename cs]
  | .not o c => by simp only [renameCond, bare, bare_rename c]
  | .nwhen o c n => by simp only [renameCond, bare, bare_rename c]
theorem bares_rename : ∀ cs : List (Cond α κ W), bares (renameConds r cs) = renameConds r (bares cs)
  | [] => rfl
  | c :: cs => by simp only [renameConds, bares, bare_rename c, bares_rename cs]
end

theorem restatedArgs_back {a : RunArgs α κ W} {a' : RunArgs β κ W}
    (h : RestatedArgs (renameArgs r a) a') : RestatedArgs a (renameArgs r.symm a') where
  id := h.id
  esu := by
    have := h.esu
    show bare (renameCond r.symm a'.esu) = _
    rw [bare_rename, this]
    show renameCond _ (bare (renameCond r a.esu)) = _
    rw [bare_rename, renameCond_back]
  seq := by
    have := h.seq
    show bare (renameCond r.symm a'.seq) = _
    rw [bare_rename, this]
    show renameCond _ (bare (renameCond r a.seq)) = _
    rw [bare_rename, renameCond_back]
  others := by
    have := h.others
    show bares (renameConds r.symm a'.others) = _
    rw [bares_rename, this]
    show renameConds _ (bares (renameConds r a.others)) = _
    rw [bares_rename, renameConds_back]

theorem renameConsumer_back (w : List (List α) → World α κ W) :
    renameConsumer r.symm (renameConsumer r w) = w := by
  funext ys
  show renameWorld r.symm (renameWorld r (w (renameSets r.symm (renameSets r ys)))) = _
  rw [renameWorld_back, r.sets_back]

end

variable {a : RunArgs α κ W} {a' : RunArgs β κ W} {abs abs' : Bool} {s0 t : Sys α κ W}
variable {s0' t' : Sys β κ W} {pc : PC α} {pc' : PC β} {h : History α κ W} {h' : History β κ W}
variable {cyc : Graph α → List (List α)} {cyc' : Graph β → List (List β)} {g0 g : Graph α}
variable {g0' : Graph β} {ops : List (SchedOp α κ W)} {ops' : List (SchedOp β κ W)}
variable {w : Whole α κ W} {w' : Whole β κ W} {ds : List (α × GSC α)}

/-- C111 with C112: new schedulers for two graphs that are the same but for the names of the nodes
and for the order in which nodes and senders are written, with structural conditions that are the
same but for the names, and no basic conditions.  At every position their runs yield sets whose
members correspond.  What is missing: see `C111_same_partial`. -/
theorem C111_isomorphic_partial (r : Renaming α β) {wd : List (List α) → World α κ W}
    (hl : ListsCycles cyc) (hl' : ListsCycles cyc') (hg : Dict.WF g0) (hg' : Dict.WF g0')
    (hs : SameGraph (renameGraph r g0) g0') (hp : Prepared cyc g0 ops g w)
    (hq' : ∃ st ow, Spec.Quiet (Stack.new .standard (baseGraph g0') st ow) ops' w'.stack)
    (ho' : OneOwner (ops'.flatMap SchedOp.adds)) (hd : AreConditions cyc (present ops) ds)
    (hd' : AreConditions cyc' (present ops') (ds.map fun p => (r.to p.1, renameGSC r p.2)))
    (hf : AllUnordered cyc (baseGraph g0) ds) (hc : ¬ HasCycle g) (hse : ∀ n, ¬ Edge g n n)
    (unit : Rat) (x : World α κ W) (hr : w.rest = Sys.new g0 .standard a.id unit x)
    (hr' : w'.rest = Sys.new g0' .standard a.id unit (renameWorld r x))
    (hb : w.stack.cset.basic = []) (hb' : w'.stack.cset.basic = []) (h0 : w.sys = .ok s0)
    (h0' : w'.sys = .ok s0') (hw : ∀ ys ys', SameSets ys ys' → wd ys' = wd ys)
    (ha : RestatedArgs (renameArgs r a) a') (hE : DescribedEnd a)
    (hrun : Scripted wd a s0 abs h t pc)
    (hrun' : Scripted (renameConsumer r wd) a' s0' abs' h' t' pc') :
    abs' = abs ∧
    (∀ (k : Nat) (x : List α) (y : List β), (yields h)[k]? = some x → (yields h')[k]? = some y →
      ∀ n, n ∈ x ↔ r.to n ∈ y) ∧
    (pc = .returned → (yields h').length ≤ (yields h).length) ∧
    (pc' = .returned → (yields h).length ≤ (yields h').length) := by
  have k := (C82_run r.symm).1 hrun'
  rw [renameConsumer_back] at k
  obtain ⟨st, ow, hq⟩ := hq'
  have hq := quiet_rename r.symm hq
  rw [← Stack.new_renameS, ← baseGraph_rename] at hq
  obtain ⟨k1, k2, k3, k4⟩ := C111_runs_partial (cyc' := renameCyc r.symm cyc')
    (g0' := renameGraph r.symm g0') (ops' := ops'.map (renameOp r.symm))
    (w' := renameWhole r.symm w') hl (C112_cycles r.symm hl') hg (wf_rename r.symm hg')
    (sameGraph_back r hs) hp ⟨_, _, hq⟩
    (by rw [flatMap_adds_rename]; exact oneOwner_rename r.symm ho') hd
    (by rw [present_rename]; exact areConditions_back r hd') hf hc hse unit x hr
    (by
      show renameSys r.symm w'.rest = _
      rw [hr', ← C82_new, renameWorld_back])
    hb
    (by
      show renameDict r.symm _ w'.stack.cset.basic = _
      rw [hb']; rfl)
    h0 (by rw [sys_rename, h0']; rfl) hw (restatedArgs_back r ha) hE hrun k
  rw [yields_rename] at k2 k3 k4
  have e : (renameSets r.symm (yields h')).length = (yields h').length := List.length_map _
  rw [e] at k3 k4
  refine ⟨k1, fun i x y hx hy n => ?_, k3, fun hp => k4 (by rw [hp]; rfl)⟩
  have e : (renameSets r.symm (yields h'))[i]? = some (y.map r.symm.to) := by
    unfold renameSets; rw [List.getElem?_map, hy]; rfl
  rw [k2 i x _ hx e n, Renaming.mem_back]
  rfl

/-! ## Concrete cases -/

/-- `resA`, and `resB` with pairs as nodes. -/
example : ∀ (k : Nat) (x : List Nat) (y : List (Nat × Unit)), (yields resRunA.1)[k]? = some x →
    (yields (scriptAfter (renameConsumer renDemo constWorld) (renameArgs renDemo resArgs')
      (renameSys renDemo resB) 300).1)[k]? = some y → ∀ n, n ∈ x ↔ (n, ()) ∈ y :=
  (C82_isomorphic renDemo res_before
    (scriptAfter_scripted (w := constWorld) (a := resArgs) (s0 := resA) (abs := false)
      (by decide +kernel) 300)
    (scriptAfter_scripted (abs := false) (by decide +kernel) 300)).2.1

/-! The tree of `C111`, with pairs as nodes, in another order: -/

/-- The graph `treeB`, node `n` being called `(n, ())`. -/
def treeC : Graph (Nat × Unit) :=
  [((3, ()), [(0, ())]), ((2, ()), [(1, ())]), ((0, ()), []), ((1, ()), [(0, ())])]

/-- The two conditions, with other objects. -/
def treeOpsC : List (SchedOp (Nat × Unit) Nat Unit) :=
  [.add (1, ()) (.structural ((renameGSC renDemo (GSC.reposition oneBeforeThree)).toSCond cyclesOf 60)),
   .queue,
   .add (2, ()) (.structural ((GSC.addEdgeTo (3, ())).toSCond cyclesOf 61))]

def pairOwners : Store (Nat × Unit) Nat := ⟨fun _ => none, fun _ _ => 0, 0⟩

theorem quiet_of_calls (ops : List (SchedOp α κ W)) : ∀ s : Stack α κ W,
    (∀ e ∈ callsRaise s ops, e = none) → Spec.Quiet s ops (performed s ops) := by
  induction ops with
  | nil => intro s _; exact .nil s
  | cons op ops ih =>
    intro s h
    exact .cons (Prod.ext rfl (h _ List.mem_cons_self)) (ih _ fun e he => h e (List.mem_cons_of_mem _ he))

def treeWholeC : Whole (Nat × Unit) Nat Unit :=
  { stack := performed (Stack.new .standard (baseGraph treeC) pairOwners (fun _ => none))
      treeOpsC
    rest := Sys.new treeC .standard none 1 (renameWorld renDemo demoWorld) }

def treeSysC : Sys (Nat × Unit) Nat Unit :=
  { treeWholeC.rest with
    graph := (renameGraph renDemo [(0, []), (1, [0]), (3, [0, 1, 2]), (2, [0])])
    queue := queueOf (renameGraph renDemo [(0, []), (1, [0]), (3, [0, 1, 2]), (2, [0])])
    conds := treeWholeC.stack.cset.basic, store := treeWholeC.stack.cset.store }

theorem treeC_same : SameGraph (renameGraph renDemo treeA) treeC := by
  have h := shape_graph tree_shape
  exact sameGraph_back renDemo.symm (g := renameGraph renDemo treeA) (g' := treeB) h

theorem treeC_oneOwner : OneOwner (treeOpsC.flatMap SchedOp.adds) := by
  intro e he f hf h
  simp only [treeOpsC, List.flatMap_cons, List.flatMap_nil, SchedOp.adds, structEntries,
    List.append_nil, List.nil_append, List.cons_append, List.mem_cons, List.not_mem_nil,
    or_false] at he hf
  rcases he with rfl | rfl <;> rcases hf with rfl | rfl <;>
    first | rfl | (simp [GSC.toSCond] at h)

theorem treeC_quiet : ∃ st ow, Spec.Quiet (Stack.new .standard (baseGraph treeC) st ow) treeOpsC
    treeWholeC.stack :=
  ⟨pairOwners, fun _ => none, quiet_of_calls _ _ (by decide +kernel)⟩

theorem treeC_sys : treeWholeC.sys = .ok treeSysC := by
  have h1 : treeWholeC.stack.readGraph.2 =
      .ok (renameGraph renDemo [(0, []), (1, [0]), (3, [0, 1, 2]), (2, [0])]) := by decide +kernel
  have h2 : treeWholeC.stack.readQueue.2 =
      .ok (queueOf (renameGraph renDemo [(0, []), (1, [0]), (3, [0, 1, 2]), (2, [0])])) := by
    decide +kernel
  simp only [Whole.sys, h1, h2]
  rfl

def treeRunC := scriptAfter (renameConsumer renDemo constWorld) (renameArgs renDemo resArgs') treeSysC 300

/-- `C111_isomorphic_partial` applied. -/
example : ∀ (k : Nat) (x : List Nat) (y : List (Nat × Unit)), (yields treeRunA.1)[k]? = some x →
    (yields treeRunC.1)[k]? = some y → ∀ n, n ∈ x ↔ (n, ()) ∈ y :=
  (C111_isomorphic_partial renDemo (cyc := cyclesOf) (cyc' := cyclesOf) (a := resArgs)
    (a' := renameArgs renDemo resArgs') (wd := constWorld) (w := treeWhole treeA treeOpsA)
    (w' := treeWholeC) (s0 := treeSysA) (s0' := treeSysC) (ops := treeOpsA) (ops' := treeOpsC)
    (g0 := treeA) (g0' := treeC) (ds := twoConds)
    cyclesOf_lists cyclesOf_lists (by decide) (by decide)
    treeC_same treeA_prepared treeC_quiet treeC_oneOwner
    tree_are.1 (.cons _ _ _ (.cons _ (GSC.addEdgeTo (3, ())) _ .nil))
    (by rw [treeA_base]; exact twoConds_free)
    (fun ⟨n, hn⟩ => no_cycle_of_lt (g := [(0, []), (1, [0]), (2, [0]), (3, [0, 1, 2])]) (by decide)
        ⟨n, OpCond.TransGen.mono' (fun _ _ e => e.1) hn⟩)
    (fun n hn => no_cycle_of_lt (g := [(0, []), (1, [0]), (2, [0]), (3, [0, 1, 2])]) (by decide)
        ⟨n, .single hn⟩)
    1 demoWorld rfl rfl rfl rfl treeA_sys treeC_sys (fun _ _ _ => rfl) ⟨rfl, rfl, rfl, rfl⟩ res_end
    (scriptAfter_scripted (w := constWorld) (a := resArgs) (s0 := treeSysA) (abs := false)
      (by decide +kernel) 300)
    (scriptAfter_scripted (w := renameConsumer renDemo constWorld) (a := renameArgs renDemo resArgs')
      (s0 := treeSysC) (abs := false) (by decide +kernel) 300)).2.1

/-- What the two runs yield. -/
example : (yields treeRunA.1).take 4 = [[0], [1, 2], [3], [0]] ∧
    (yields treeRunC.1).take 4 = [[(0, ())], [(1, ()), (2, ())], [(3, ())], [(0, ())]] ∧
    treeRunA.2.2 = .returned ∧ treeRunC.2.2 = .returned := by decide +kernel

end GS.Props
