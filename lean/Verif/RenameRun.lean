import Verif.Rename
/-!
# Renaming nodes: graphs and runs
-/

set_option linter.unusedSectionVars false

namespace GS
open Spec
variable {α β κ W : Type _} [DecidableEq α] [DecidableEq β] [DecidableEq κ]

/-! ## Graphs -/

section
variable (r : Renaming α β)

theorem filter_rename {γ δ : Type _} (f : γ → δ) (p : γ → Bool) (q : δ → Bool)
    (h : ∀ x, q (f x) = p x) (l : List γ) : (l.map f).filter q = (l.filter p).map f := by
  rw [List.filter_map]
  congr 2
  funext x
  exact h x

theorem eraseDups_rename : ∀ (n : Nat) (l : List α), l.length ≤ n →
    (l.map r.to).eraseDups = l.eraseDups.map r.to
  | _, [], _ => rfl
  | 0, _ :: _, h => by simp at h
  | n + 1, x :: l, h => by
    rw [List.map_cons, List.eraseDups_cons, List.eraseDups_cons, List.map_cons]
    rw [filter_rename r.to (fun y => !y == x) _ (fun y => by simp [BEq.beq, r.inj])]
    rw [eraseDups_rename n _ (Nat.le_trans (List.length_filter_le _ _) (Nat.le_of_succ_le_succ h))]

theorem keys_rename (g : Graph α) : Dict.keys (renameGraph r g) = (Dict.keys g).map r.to := by
  unfold renameGraph Dict.keys
  simp [List.map_map, Function.comp_def]

theorem values_rename (g : Graph α) :
    (renameGraph r g).flatMap Prod.snd = (g.flatMap Prod.snd).map r.to := by
  induction g with
  | nil => rfl
  | cons p g ih =>
    unfold renameGraph at ih ⊢
    rw [List.map_cons, List.flatMap_cons, ih, List.flatMap_cons, List.map_append]

theorem renameGraph_append (g h : Graph α) :
    renameGraph r (g ++ h) = renameGraph r g ++ renameGraph r h := List.map_append

theorem stripSelf_rename (g : Graph α) :
    Toposort.stripSelf (renameGraph r g) = renameGraph r (Toposort.stripSelf g) := by
  unfold Toposort.stripSelf renameGraph
  rw [List.map_map, List.map_map]
  apply List.map_congr_left
  intro p _
  refine Prod.ext rfl ?_
  exact filter_rename r.to (fun e => decide (e ≠ p.1)) _ (fun y => by simp [r.inj]) _

theorem extraItems_rename (g : Graph α) :
    Toposort.extraItems (renameGraph r g) = (Toposort.extraItems g).map r.to := by
  unfold Toposort.extraItems
  rw [values_rename, ← eraseDups_rename r _ _ (Nat.le_refl _)]
  congr 1
  have h : (renameGraph r g).map Prod.fst = (g.map Prod.fst).map r.to := keys_rename r g
  rw [h]
  exact filter_rename r.to _ _ (fun y => by simp only [r.mem]) _

theorem addExtra_rename (g : Graph α) :
    Toposort.addExtra (renameGraph r g) = renameGraph r (Toposort.addExtra g) := by
  unfold Toposort.addExtra
  rw [renameGraph_append, extraItems_rename]
  congr 1
  unfold renameGraph
  rw [List.map_map, List.map_map]
  rfl

theorem ordered_rename (g : Graph α) :
    Toposort.ordered (renameGraph r g) = (Toposort.ordered g).map r.to := by
  unfold Toposort.ordered renameGraph
  rw [filter_rename _ (fun p : α × List α => p.2.isEmpty) _ (fun p => by simp), List.map_map,
    List.map_map]
  rfl

theorem remove_rename (o : List α) (g : Graph α) :
    Toposort.remove (o.map r.to) (renameGraph r g) = renameGraph r (Toposort.remove o g) := by
  unfold Toposort.remove renameGraph
  rw [filter_rename _ (fun p : α × List α => decide (p.1 ∉ o)) _ (fun p => by simp only [r.mem]),
    List.map_map, List.map_map]
  apply List.map_congr_left
  intro p _
  refine Prod.ext rfl ?_
  exact filter_rename r.to (fun e => decide (e ∉ o)) _ (fun y => by simp only [r.mem]) _

/-- Renaming the result of `toposort`. -/
def renameLayers : Except Err (List (List α)) → Except Err (List (List β))
  | .ok q => .ok (renameSets r q)
  | .error e => .error e

theorem rounds_rename : ∀ (n : Nat) (g : Graph α),
    Toposort.rounds n (renameGraph r g) = renameLayers r (Toposort.rounds n g)
  | 0, _ => rfl
  | n + 1, g => by
    unfold Toposort.rounds
    rw [ordered_rename]
    by_cases h : Toposort.ordered g = []
    · rw [h]
      simp only [List.map_nil, if_true]
      by_cases h2 : g = []
      · subst h2; rfl
      · have : renameGraph r g ≠ [] := by unfold renameGraph; simpa using h2
        rw [if_neg h2, if_neg this]; rfl
    · have : (Toposort.ordered g).map r.to ≠ [] := by simpa using h
      rw [if_neg h, if_neg this, remove_rename, rounds_rename n]
      cases Toposort.rounds n (Toposort.remove (Toposort.ordered g) g) <;> rfl

theorem toposort_rename (g : Graph α) : toposort (renameGraph r g) = renameLayers r (toposort g) := by
  unfold toposort
  by_cases h2 : g = []
  · subst h2; rfl
  · have : renameGraph r g ≠ [] := by unfold renameGraph; simpa using h2
    simp only [if_neg h2, if_neg this]
    rw [stripSelf_rename, addExtra_rename, rounds_rename]
    congr 2
    unfold renameGraph
    rw [List.length_map]

theorem update_rename (d e : Graph α) :
    renameGraph r (Dict.update d e) = Dict.update (renameGraph r d) (renameGraph r e) := by
  unfold Dict.update
  induction e generalizing d with
  | nil => rfl
  | cons p e ih =>
    have h : renameGraph r (p :: e) = (r.to p.1, p.2.map r.to) :: renameGraph r e := rfl
    rw [List.foldl_cons, ih, h, List.foldl_cons]
    congr 1
    exact keys_set r (fun l => l.map r.to) d p.1 p.2

theorem baseGraph_rename (g : Graph α) : baseGraph (renameGraph r g) = renameGraph r (baseGraph g) := by
  unfold baseGraph
  rw [update_rename, values_rename, eraseDups_rename r _ _ (Nat.le_refl _)]
  congr 1
  unfold renameGraph
  rw [List.map_map, List.map_map]
  rfl

theorem queueOf_rename (g : Graph α) : queueOf (renameGraph r g) = renameSets r (queueOf g) := by
  unfold queueOf
  rw [toposort_rename]
  cases toposort g <;> rfl

end

/-! ## Counters -/

section
variable (r : Renaming α β) (s : Sys α κ W) (id : Option κ) (base : Option (Option κ))

/-- Renaming a state, or the exception. -/
def renameE : Except Err (Sys α κ W) → Except Err (Sys β κ W)
  | .ok s => .ok (renameSys r s)
  | .error e => .error e

theorem getTotal_rename : Dict.get? (renameSys r s).countsTotal id =
    (Dict.get? s.countsTotal id).map fun f ts n => f ts (r.back n) :=
  get?_values (fun (f : TimeScale → α → Nat) ts n => f ts (r.back n)) s.countsTotal id

theorem getUseable_rename : Dict.get? (renameSys r s).countsUseable id =
    (Dict.get? s.countsUseable id).map fun f a b => f (r.back a) (r.back b) :=
  get?_values (fun (f : α → α → Nat) a b => f (r.back a) (r.back b)) s.countsUseable id

theorem getList_rename : Dict.get? (renameSys r s).execList id =
    (Dict.get? s.execList id).map (renameSets r) :=
  get?_values (renameSets r) s.execList id

theorem setTotal_rename (f : TimeScale → α → Nat) :
    renameSys r { s with countsTotal := Dict.set s.countsTotal id f } =
      { renameSys r s with
        countsTotal := Dict.set (renameSys r s).countsTotal id fun ts n => f ts (r.back n) } := by
  have h := values_set (fun (f : TimeScale → α → Nat) ts n => f ts (r.back n)) s.countsTotal id f
  unfold renameSys renameView
  simp only
  rw [h]

theorem setUseable_rename (f : α → α → Nat) :
    renameSys r { s with countsUseable := Dict.set s.countsUseable id f } =
      { renameSys r s with
        countsUseable := Dict.set (renameSys r s).countsUseable id fun a b => f (r.back a) (r.back b) } := by
  have h := values_set (fun (f : α → α → Nat) a b => f (r.back a) (r.back b)) s.countsUseable id f
  unfold renameSys renameView
  simp only
  rw [h]

theorem setList_rename (l : List (List α)) :
    renameSys r { s with execList := Dict.set s.execList id l } =
      { renameSys r s with execList := Dict.set (renameSys r s).execList id (renameSets r l) } := by
  have h := values_set (renameSets r) s.execList id l
  unfold renameSys renameView
  simp only
  rw [h]

theorem initTotal_rename : (renameSys r s).initTotal id base = renameE r (s.initTotal id base) := by
  unfold Sys.initTotal
  rw [getTotal_rename]
  cases Dict.get? s.countsTotal id with
  | some f => rfl
  | none =>
    cases base with
    | none => simp only [Option.map_none, renameE, setTotal_rename]
    | some b =>
      simp only [Option.map_none, getTotal_rename]
      cases Dict.get? s.countsTotal b with
      | none => rfl
      | some f => simp only [Option.map_some, renameE, setTotal_rename]

theorem initUseable_rename :
    (renameSys r s).initUseable id base = renameE r (s.initUseable id base) := by
  unfold Sys.initUseable
  rw [getUseable_rename]
  cases Dict.get? s.countsUseable id with
  | some f => rfl
  | none =>
    cases base with
    | none => simp only [Option.map_none, renameE, setUseable_rename]
    | some b =>
      simp only [Option.map_none, getUseable_rename]
      cases Dict.get? s.countsUseable b with
      | none => rfl
      | some f => simp only [Option.map_some, renameE, setUseable_rename]

theorem initList_rename : (renameSys r s).initList id base = renameE r (s.initList id base) := by
  unfold Sys.initList
  rw [getList_rename]
  cases Dict.get? s.execList id with
  | some f => rfl
  | none =>
    cases base with
    | none => simp only [Option.map_none, renameE, setList_rename]; rfl
    | some b =>
      simp only [Option.map_none, getList_rename]
      cases Dict.get? s.execList b with
      | none => rfl
      | some f => simp only [Option.map_some, renameE, setList_rename]

theorem initClock_rename : (renameSys r s).initClock id base = renameE r (s.initClock id base) := by
  unfold Sys.initClock
  have h : (renameSys r s).clocks = s.clocks := rfl
  rw [h]
  cases Dict.get? s.clocks id with
  | some f => rfl
  | none =>
    cases base with
    | none => rfl
    | some b =>
      simp only
      cases Dict.get? s.clocks b <;> rfl

/-- Renaming a state, next to something else. -/
def renameP {γ : Type _} (x : Sys α κ W × γ) : Sys β κ W × γ := (renameSys r x.1, x.2)

theorem initCounts_rename : (renameSys r s).initCounts id base = renameP r (s.initCounts id base) := by
  unfold Sys.initCounts
  rw [initTotal_rename]
  cases s.initTotal id base with
  | error e => rfl
  | ok s1 =>
    simp only [renameE, initUseable_rename]
    cases s1.initUseable id base with
    | error e => rfl
    | ok s2 =>
      simp only [renameE, initList_rename]
      cases s2.initList id base with
      | error e => rfl
      | ok s3 =>
        simp only [renameE, initClock_rename]
        cases s3.initClock id base <;> rfl

theorem resetTotal_rename (ts : TimeScale) :
    (renameSys r s).resetTotal ts id = renameE r (s.resetTotal ts id) := by
  unfold Sys.resetTotal
  rw [getTotal_rename]
  cases Dict.get? s.countsTotal id with
  | none => rfl
  | some f => simp only [Option.map_some, renameE, setTotal_rename]

theorem resetUseable_rename : (renameSys r s).resetUseable id = renameSys r (s.resetUseable id) := by
  unfold Sys.resetUseable
  rw [setUseable_rename]

theorem getClock_rename : (renameSys r s).getClock id = renameSys r (s.getClock id) := by
  unfold Sys.getClock
  have h : (renameSys r s).clocks = s.clocks := rfl
  rw [h]
  cases Dict.get? s.clocks id <;> rfl

theorem incrClock_rename (ts : TimeScale) :
    (renameSys r s).incrClock id ts = renameE r (s.incrClock id ts) := by
  unfold Sys.incrClock
  have h : (renameSys r s).clock id = s.clock id := rfl
  rw [h]
  cases (s.clock id).incr ts <;> rfl

theorem fire_rename (n : α) : (renameSys r s).fire id (r.to n) = renameE r (s.fire id n) := by
  unfold Sys.fire
  rw [getTotal_rename, getUseable_rename]
  have h : r.to n ∈ (renameSys r s).nodes ↔ n ∈ s.nodes := r.mem
  cases Dict.get? s.countsTotal id with
  | none => rfl
  | some f =>
    by_cases hn : n ∈ s.nodes
    · simp only [Option.map_some, h, hn, if_true]
      cases Dict.get? s.countsUseable id with
      | none => rfl
      | some u =>
        simp only [Option.map_some, renameE]
        have h1 := values_set (fun (f : TimeScale → α → Nat) ts n => f ts (r.back n)) s.countsTotal
          id (fun t m => if m = n then f t m + 1 else f t m)
        have h2 := values_set (fun (f : α → α → Nat) a b => f (r.back a) (r.back b)) s.countsUseable
          id (fun a b => if a = n then (if b = n then 0 else u a b) + 1 else if b = n then 0 else u a b)
        unfold renameSys renameView
        simp only [h1, h2, r.eq_to]
    · simp only [Option.map_some, h, hn, if_false, renameE]

theorem evalCond_rename (c : Cond α κ W) :
    (renameSys r s).evalCond id (renameCond r c) = renameP r (s.evalCond id c) := by
  unfold Sys.evalCond
  have h := eval_rename r s.toView id c s.store
  have e : eval (renameSys r s).toView id (renameCond r c) (renameSys r s).store =
    renameResult r (eval s.toView id c s.store) := h
  rw [e]
  rfl

theorem considerNode_rename (n : α) :
    (renameSys r s).considerNode id (r.to n) = renameP r (s.considerNode id n) := by
  unfold Sys.considerNode
  have h : Dict.get? (renameSys r s).conds (r.to n) = (Dict.get? s.conds n).map (renameCond r) :=
    get?_keys r (renameCond r) s.conds n
  rw [h]
  cases Dict.get? s.conds n with
  | none => rfl
  | some c =>
    simp only [Option.map_some, evalCond_rename]
    rcases s.evalCond id c with ⟨s', x⟩
    cases x with
    | error e => rfl
    | ok b =>
      cases b with
      | false => rfl
      | true =>
        simp only [renameP, fire_rename]
        cases s'.fire id n <;> rfl

theorem record_rename (abs : Bool) (set : List α) :
    (renameSys r s).record id abs (set.map r.to) = renameP r (s.record id abs set) := by
  unfold Sys.record
  rw [getList_rename]
  cases Dict.get? s.execList id with
  | none => rfl
  | some l =>
    simp only [Option.map_some]
    have h : renameSys r { s with execList := Dict.set s.execList id (l ++ [set]) } =
        { renameSys r s with
          execList := Dict.set (renameSys r s).execList id (renameSets r l ++ [set.map r.to]) } := by
      rw [setList_rename]
      unfold renameSets
      simp
    cases abs with
    | false => exact Prod.ext h.symm rfl
    | true =>
      simp only [if_true]
      have h2 : (renameSys r s).timestamps = s.timestamps := rfl
      rw [h2]
      cases Dict.get? s.timestamps id with
      | none => exact Prod.ext h.symm rfl
      | some ts =>
        simp only [renameP]
        refine Prod.ext ?_ rfl
        have h3 := congrArg (fun x : Sys β κ W => { x with
          timestamps := Dict.set s.timestamps id (ts ++ [(s.clock id).time]) }) h
        exact h3.symm

end

/-! ## The beginning of a run -/

section
variable (r : Renaming α β)

theorem alloc_rename (s : Sys α κ W) (k : Nat) :
    (renameSys r s).alloc k = renameSys r (s.alloc k) := by
  unfold Sys.alloc renameSys
  congr 1
  unfold renameStore
  simp only [Store.mk.injEq, and_self, and_true]
  funext o
  split <;> rfl

theorem defaultCond_rename (o : OId) (ds : List α) :
    (Sys.defaultCond o (ds.map r.to) : Cond β κ W) = renameCond r (Sys.defaultCond o ds) := by
  match ds with
  | [] => rfl
  | [d] => rfl
  | d :: e :: ds =>
    show Cond.all o _ = Cond.all o _
    congr 1
    rw [renameConds_map, List.map_map]
    have h : ((d :: e :: ds).map r.to).zipIdx =
        (d :: e :: ds).zipIdx.map (Prod.map r.to id) := List.zipIdx_map ..
    have h2 : r.to d :: List.map r.to (e :: ds) = (d :: e :: ds).map r.to := rfl
    rw [h2, h, List.map_map]
    rfl

theorem addBasic_rename (s : Sys α κ W) (n : α) (c : Cond α κ W) :
    (renameSys r s).addBasic (r.to n) (renameCond r c) = renameSys r (s.addBasic n c) := by
  unfold Sys.addBasic
  have h1 : setOwner (some (r.to n)) (renameCond r c) (renameSys r s).store =
      renameStore r (setOwner (some n) c s.store) := setOwner_rename r (some n) c s.store
  have h2 : Dict.set (renameSys r s).conds (r.to n) (renameCond r c) = _ :=
    (keys_set r (renameCond r) s.conds n c).symm
  rw [h1, h2]
  rfl

theorem validateConditions_rename (ns : List α) (s : Sys α κ W) :
    Sys.validateConditions (ns.map r.to) (renameSys r s) =
      renameP r (Sys.validateConditions ns s) := by
  induction ns generalizing s with
  | nil => rfl
  | cons n ns ih =>
    rw [List.map_cons]
    unfold Sys.validateConditions
    have h : Dict.get? (renameSys r s).conds (r.to n) = (Dict.get? s.conds n).map (renameCond r) :=
      get?_keys r (renameCond r) s.conds n
    have h2 : Dict.get? (renameSys r s).graph (r.to n) = (Dict.get? s.graph n).map (List.map r.to) :=
      get?_keys r (List.map r.to) s.graph n
    rw [h, h2]
    cases Dict.get? s.conds n with
    | some c => exact ih s
    | none =>
      cases Dict.get? s.graph n with
      | none => rfl
      | some deps =>
        simp only [Option.map_none, Option.map_some, List.length_map, alloc_rename]
        have h3 : (renameSys r s).store.fresh = s.store.fresh := rfl
        rw [h3, defaultCond_rename, addBasic_rename]
        exact ih _

theorem validateRunState_rename (s : Sys α κ W) :
    (renameSys r s).validateRunState = renameP r s.validateRunState := by
  unfold Sys.validateRunState
  have h : toposort (renameSys r s).graph = renameLayers r (toposort s.graph) :=
    toposort_rename r s.graph
  rw [h]
  cases toposort s.graph with
  | error e => rfl
  | ok q => exact validateConditions_rename r s.nodes s

theorem absoluteConds_rename (s : Sys α κ W) (a : RunArgs α κ W) :
    (renameSys r s).absoluteConds (renameArgs r a) = (s.absoluteConds a).map (renameCond r) := by
  unfold Sys.absoluteConds
  rw [← filter_rename (renameCond r) Cond.isAbsolute Cond.isAbsolute (isAbsolute_rename r)]
  congr 1
  rw [List.map_append]
  congr 1
  · unfold renameSys
    rw [List.map_map, List.map_map]
    rfl
  · show renameCond r a.seq :: renameCond r a.esu :: renameConds r a.others = _
    rw [renameConds_map]
    rfl

theorem absoluteUnit_rename (s : Sys α κ W) (cs : List (Cond α κ W)) :
    (renameSys r s).absoluteUnit (cs.map (renameCond r)) = s.absoluteUnit cs := by
  unfold Sys.absoluteUnit
  have h : ((cs.map (renameCond r)).flatMap fun c => c.intervals ++
      (if (renameSys r s).mode = Mode.exactTime then c.fixedPoints else [])) =
      cs.flatMap fun c => c.intervals ++ (if s.mode = Mode.exactTime then c.fixedPoints else []) := by
    rw [List.flatMap_map]
    congr 1
    funext c
    rw [intervals_rename, points_rename]
    rfl
  rw [h]
  have h2 : (renameSys r s).queue.length = s.queue.length := by
    show (renameSets r s.queue).length = _
    unfold renameSets
    rw [List.length_map]
  rw [h2]
  rfl

theorem firstPoint_rename (c : Cond α κ W) :
    Sys.firstPoint (renameCond r c) = Sys.firstPoint c := by
  unfold Sys.firstPoint
  rw [points_rename]

theorem advanceTo_rename (x : Rat) (cs : List (Cond α κ W)) :
    Sys.advanceTo x (cs.map (renameCond r)) = Sys.advanceTo x cs := by
  cases cs with
  | nil => rfl
  | cons c cs =>
    show max x _ = max x _
    rw [List.foldl_map, firstPoint_rename]
    simp only [firstPoint_rename]

theorem setupAbsolute_rename (s : Sys α κ W) (a : RunArgs α κ W) :
    (renameSys r s).setupAbsolute (renameArgs r a) = renameP r (s.setupAbsolute a) := by
  unfold Sys.setupAbsolute
  rw [absoluteConds_rename]
  have hc : (renameSys r s).clock (renameArgs r a).id = s.clock a.id := rfl
  by_cases h : s.absoluteConds a = []
  · simp only [h, List.map_nil, if_true]; rfl
  · have h2 : (s.absoluteConds a).map (renameCond r) ≠ [] := by simpa using h
    simp only [if_neg h, if_neg h2, absoluteUnit_rename, advanceTo_rename, hc]
    cases s.absoluteUnit (s.absoluteConds a) <;> rfl

theorem start_rename (s : Sys α κ W) (a : RunArgs α κ W) :
    (renameSys r s).start (renameArgs r a) = renameP r (s.start a) := by
  unfold Sys.start
  rw [validateRunState_rename]
  rcases s.validateRunState with ⟨s1, _ | e⟩
  · simp only [renameP]
    have h1 : (renameSys r s1).getClock (renameArgs r a).id = renameSys r (s1.getClock a.id) :=
      getClock_rename r s1 a.id
    rw [h1, setupAbsolute_rename]
    rcases (s1.getClock a.id).setupAbsolute a with ⟨s2, e | abs⟩
    · rfl
    · simp only [renameP]
      have h2 : (renameSys r s2).initCounts (renameArgs r a).id (renameArgs r a).base =
        renameP r (s2.initCounts a.id a.base) := initCounts_rename r s2 a.id a.base
      rw [h2]
      rcases s2.initCounts a.id a.base with ⟨s3, _ | e⟩
      · simp only [renameP]
        have h3 : (renameSys r s3).resetUseable (renameArgs r a).id =
          renameSys r (s3.resetUseable a.id) := resetUseable_rename r s3 a.id
        have h4 : (renameSys r (s3.resetUseable a.id)).resetTotal .environment_state_update
            (renameArgs r a).id = renameE r ((s3.resetUseable a.id).resetTotal
              .environment_state_update a.id) := resetTotal_rename r _ a.id _
        rw [h3, h4]
        cases (s3.resetUseable a.id).resetTotal .environment_state_update a.id <;> rfl
      · rfl
  · rfl

/-! ## The loop -/

/-- Renaming the result of a step. -/
def renameOut (x : Sys α κ W × PC α × Option (Event α)) : Sys β κ W × PC β × Option (Event β) :=
  (renameSys r x.1, renamePC r x.2.1, x.2.2.map (renameEvent r))

theorem continues_rename (s : Sys α κ W) (a : RunArgs α κ W) :
    (renameSys r s).continues (renameArgs r a) = renameP r (s.continues a) := by
  unfold Sys.continues
  have h : ∀ (s : Sys α κ W) c, (renameSys r s).evalCond (renameArgs r a).id (renameCond r c) =
    renameP r (s.evalCond a.id c) := fun s c => evalCond_rename r s a.id c
  have e1 : (renameArgs r a).esu = renameCond r a.esu := rfl
  have e2 : (renameArgs r a).seq = renameCond r a.seq := rfl
  rw [e1, e2, h]
  rcases s.evalCond a.id a.esu with ⟨s', e | b⟩
  · rfl
  · cases b with
    | true => rfl
    | false =>
      simp only [renameP, h]
      rcases s'.evalCond a.id a.seq with ⟨s'', e | b⟩ <;> rfl

theorem endPass_rename (s : Sys α κ W) (a : RunArgs α κ W) (abs changed : Bool) :
    (renameSys r s).endPass (renameArgs r a) abs changed = renameOut r (s.endPass a abs changed) := by
  unfold Sys.endPass
  by_cases hc : (!changed && !abs) = true
  · rw [if_pos hc, if_pos hc]
    have h : (renameSys r s).record (renameArgs r a).id false [] = renameP r (s.record a.id false []) :=
      record_rename r s a.id false []
    rw [h]
    rcases s.record a.id false [] with ⟨s', _ | e⟩ <;> rfl
  · rw [if_neg hc, if_neg hc]
    have h : (renameSys r s).incrClock (renameArgs r a).id .pass = renameE r (s.incrClock a.id .pass) :=
      incrClock_rename r s a.id .pass
    rw [h]
    cases s.incrClock a.id .pass <;> rfl

theorem endChoice_rename (s : Sys α κ W) (a : RunArgs α κ W) (abs : Bool) (c : Choice α) :
    (renameSys r s).endChoice (renameArgs r a) abs
      { idx := c.idx, changed := c.changed, layer := c.layer.map r.to, exec := c.exec.map r.to,
        todo := c.todo.map r.to, again := c.again } = renameOut r (s.endChoice a abs c) := by
  unfold Sys.endChoice
  simp only [List.isEmpty_map]
  by_cases hc : (!c.exec.isEmpty || abs) = true
  · rw [if_pos hc, if_pos hc]
    have h : (renameSys r s).record (renameArgs r a).id abs (c.exec.map r.to) =
      renameP r (s.record a.id abs c.exec) := record_rename r s a.id abs c.exec
    rw [h]
    rcases s.record a.id abs c.exec with ⟨s', _ | e⟩ <;> rfl
  · rw [if_neg hc, if_neg hc]; rfl

theorem choose_rename (s : Sys α κ W) (a : RunArgs α κ W) (abs : Bool) (c : Choice α) :
    (renameSys r s).choose (renameArgs r a) abs
      { idx := c.idx, changed := c.changed, layer := c.layer.map r.to, exec := c.exec.map r.to,
        todo := c.todo.map r.to, again := c.again } = renameOut r (s.choose a abs c) := by
  obtain ⟨idx, changed, layer, exec, todo, again⟩ := c
  unfold Sys.choose
  cases todo with
  | nil =>
    simp only [List.map_nil]
    cases again with
    | true => rfl
    | false => exact endChoice_rename r s a abs ⟨idx, changed, layer, exec, [], false⟩
  | cons n ns =>
    simp only [List.map_cons]
    by_cases hn : n ∈ exec
    · rw [if_pos hn, if_pos (r.mem.2 hn)]; rfl
    · rw [if_neg hn, if_neg (fun h => hn (r.mem.1 h))]
      have h : (renameSys r s).considerNode (renameArgs r a).id (r.to n) =
        renameP r (s.considerNode a.id n) := considerNode_rename r s a.id n
      rw [h]
      rcases s.considerNode a.id n with ⟨s', e | b⟩
      · rfl
      · cases b with
        | false => rfl
        | true =>
          simp only [renameP, renameOut, renamePC, List.map_append, List.map_cons, List.map_nil,
            Option.map_some, renameEvent]

theorem finish_rename (s : Sys α κ W) (a : RunArgs α κ W) :
    (renameSys r s).finish (renameArgs r a) = renameOut r (s.finish a) := by
  unfold Sys.finish
  have h : (if (renameArgs r a).skip then Except.ok (renameSys r s)
      else (renameSys r s).incrClock (renameArgs r a).id .environment_state_update) =
      renameE r (if a.skip then .ok s else s.incrClock a.id .environment_state_update) := by
    have e : (renameArgs r a).skip = a.skip := rfl
    rw [e]
    cases a.skip with
    | true => rfl
    | false => exact incrClock_rename r s a.id .environment_state_update
  rw [h]
  cases (if a.skip then .ok s else s.incrClock a.id .environment_state_update) with
  | error e => rfl
  | ok s' =>
    simp only [renameE]
    have h : (renameSys r s').evalCond (renameArgs r a).id (renameArgs r a).seq =
      renameP r (s'.evalCond a.id a.seq) := evalCond_rename r s' a.id a.seq
    rw [h]
    rcases s'.evalCond a.id a.seq with ⟨s'', e | b⟩ <;> rfl

/-- A step of the renamed run is the renamed step. -/
theorem step_rename (s : Sys α κ W) (a : RunArgs α κ W) (abs : Bool) (pc : PC α) :
    (renameSys r s).step (renameArgs r a) abs (renamePC r pc) = renameOut r (s.step a abs pc) := by
  have hi : ∀ (s : Sys α κ W) ts, (renameSys r s).incrClock (renameArgs r a).id ts =
    renameE r (s.incrClock a.id ts) := fun s ts => incrClock_rename r s a.id ts
  cases pc with
  | outer =>
    simp only [renamePC, Sys.step, continues_rename]
    rcases s.continues a with ⟨s', e | b⟩
    · rfl
    · cases b with
      | false => exact finish_rename r s' a
      | true =>
        simp only [renameP]
        have h : (renameSys r s').resetTotal .pass (renameArgs r a).id =
          renameE r (s'.resetTotal .pass a.id) := resetTotal_rename r s' a.id .pass
        rw [h]
        cases s'.resetTotal .pass a.id <;> rfl
  | inner idx changed =>
    simp only [renamePC, Sys.step]
    have h : (renameSys r s).queue[idx]? = (s.queue[idx]?).map (List.map r.to) := by
      show (renameSets r s.queue)[idx]? = _
      unfold renameSets
      rw [List.getElem?_map]
    rw [h]
    cases s.queue[idx]? with
    | none => exact endPass_rename r s a abs changed
    | some layer =>
      simp only [Option.map_some, continues_rename]
      rcases s.continues a with ⟨s', e | b⟩
      · rfl
      · cases b with
        | false => exact endPass_rename r s' a abs changed
        | true => rfl
  | choosing c => exact choose_rename r s a abs c
  | yielded idx changed =>
    simp only [renamePC, Sys.step, hi]
    cases s.incrClock a.id .consideration_set_execution <;> rfl
  | yieldedEmpty =>
    simp only [renamePC, Sys.step, hi]
    cases s.incrClock a.id .consideration_set_execution with
    | error e => rfl
    | ok s' =>
      simp only [renameE, hi]
      cases s'.incrClock a.id .pass <;> rfl
  | returned => rfl
  | raised e => rfl

theorem new_rename (g : Graph α) (mode : Mode) (id : Option κ) (unit : Rat) (w : World α κ W) :
    Sys.new (renameGraph r g) mode id unit (renameWorld r w) = renameSys r (Sys.new g mode id unit w) := by
  unfold Sys.new renameSys renameView
  simp only [baseGraph_rename, keys_rename, queueOf_rename]
  cases mode <;> rfl

end

end GS
