import Verif.RenameId
/-!
# Giving execution ids other names: runs
-/

set_option linter.unusedSectionVars false

namespace GS
open Spec
variable {α κ μ W γ : Type _} [DecidableEq α] [DecidableEq κ] [DecidableEq μ]

section
variable (r : IdRenaming κ μ)

/-- A state, or an exception. -/
def reidE : Except Err (Sys α κ W) → Except Err (Sys α μ W)
  | .ok s => .ok (reidSys r s)
  | .error e => .error e

/-- A state, next to something else. -/
def reidP (x : Sys α κ W × γ) : Sys α μ W × γ := (reidSys r x.1, x.2)

section
variable (s : Sys α κ W) (id : Option κ) (base : Option (Option κ))

theorem getTotal_reid :
    Dict.get? (reidSys r s).countsTotal (r.to id) = Dict.get? s.countsTotal id := get?_reid r _ _
theorem getUseable_reid :
    Dict.get? (reidSys r s).countsUseable (r.to id) = Dict.get? s.countsUseable id := get?_reid r _ _
theorem getList_reid :
    Dict.get? (reidSys r s).execList (r.to id) = Dict.get? s.execList id := get?_reid r _ _
theorem getStamps_reid :
    Dict.get? (reidSys r s).timestamps (r.to id) = Dict.get? s.timestamps id := get?_reid r _ _
theorem getClocks_reid :
    Dict.get? (reidSys r s).clocks (r.to id) = Dict.get? s.clocks id := get?_reid r _ _
theorem sysClock_reid : (reidSys r s).clock (r.to id) = s.clock id := clock_reid r s.toView id

theorem setTotal_reid (f : TimeScale → α → Nat) :
    reidSys r { s with countsTotal := Dict.set s.countsTotal id f } =
      { reidSys r s with countsTotal := Dict.set (reidSys r s).countsTotal (r.to id) f } := by
  have h := set_reid r s.countsTotal id f
  unfold reidSys reidView
  simp only
  rw [h]

theorem setUseable_reid (f : α → α → Nat) :
    reidSys r { s with countsUseable := Dict.set s.countsUseable id f } =
      { reidSys r s with countsUseable := Dict.set (reidSys r s).countsUseable (r.to id) f } := by
  have h := set_reid r s.countsUseable id f
  unfold reidSys reidView
  simp only
  rw [h]

theorem setList_reid (l : List (List α)) :
    reidSys r { s with execList := Dict.set s.execList id l } =
      { reidSys r s with execList := Dict.set (reidSys r s).execList (r.to id) l } := by
  have h := set_reid r s.execList id l
  unfold reidSys reidView
  simp only
  rw [h]

theorem setStamps_reid (l : List Time) :
    reidSys r { s with timestamps := Dict.set s.timestamps id l } =
      { reidSys r s with timestamps := Dict.set (reidSys r s).timestamps (r.to id) l } := by
  have h := set_reid r s.timestamps id l
  unfold reidSys reidView
  simp only
  rw [h]

theorem setClock_reid (c : Clock) : reidSys r (s.setClock id c) = (reidSys r s).setClock (r.to id) c := by
  have h := set_reid r s.clocks id c
  unfold Sys.setClock reidSys reidView
  simp only
  rw [h]

theorem initTotal_reid :
    (reidSys r s).initTotal (r.to id) (base.map r.to) = reidE r (s.initTotal id base) := by
  unfold Sys.initTotal
  rw [getTotal_reid]
  cases Dict.get? s.countsTotal id with
  | some f => rfl
  | none =>
    cases base with
    | none => simp only [Option.map_none, reidE, setTotal_reid]
    | some b =>
      simp only [Option.map_some, getTotal_reid]
      cases Dict.get? s.countsTotal b with
      | none => rfl
      | some f => simp only [reidE, setTotal_reid]

theorem initUseable_reid :
    (reidSys r s).initUseable (r.to id) (base.map r.to) = reidE r (s.initUseable id base) := by
  unfold Sys.initUseable
  rw [getUseable_reid]
  cases Dict.get? s.countsUseable id with
  | some f => rfl
  | none =>
    cases base with
    | none => simp only [Option.map_none, reidE, setUseable_reid]
    | some b =>
      simp only [Option.map_some, getUseable_reid]
      cases Dict.get? s.countsUseable b with
      | none => rfl
      | some f => simp only [reidE, setUseable_reid]

theorem initList_reid :
    (reidSys r s).initList (r.to id) (base.map r.to) = reidE r (s.initList id base) := by
  unfold Sys.initList
  rw [getList_reid]
  cases Dict.get? s.execList id with
  | some f => rfl
  | none =>
    cases base with
    | none => simp only [Option.map_none, reidE, setList_reid]
    | some b =>
      simp only [Option.map_some, getList_reid]
      cases Dict.get? s.execList b with
      | none => rfl
      | some f => simp only [reidE, setList_reid]

theorem initClock_reid :
    (reidSys r s).initClock (r.to id) (base.map r.to) = reidE r (s.initClock id base) := by
  unfold Sys.initClock
  rw [getClocks_reid]
  cases Dict.get? s.clocks id with
  | some f => rfl
  | none =>
    cases base with
    | none => exact congrArg Except.ok (setClock_reid r s id Clock.new).symm
    | some b =>
      simp only [Option.map_some, getClocks_reid]
      cases Dict.get? s.clocks b with
      | none => rfl
      | some c => exact congrArg Except.ok (setClock_reid r s id c).symm

theorem initCounts_reid :
    (reidSys r s).initCounts (r.to id) (base.map r.to) = reidP r (s.initCounts id base) := by
  unfold Sys.initCounts
  rw [initTotal_reid]
  cases s.initTotal id base with
  | error e => rfl
  | ok s1 =>
    simp only [reidE, initUseable_reid]
    cases s1.initUseable id base with
    | error e => rfl
    | ok s2 =>
      simp only [reidE, initList_reid]
      cases s2.initList id base with
      | error e => rfl
      | ok s3 =>
        simp only [reidE, initClock_reid]
        cases s3.initClock id base <;> rfl

theorem resetTotal_reid (ts : TimeScale) :
    (reidSys r s).resetTotal ts (r.to id) = reidE r (s.resetTotal ts id) := by
  unfold Sys.resetTotal
  rw [getTotal_reid]
  cases Dict.get? s.countsTotal id with
  | none => rfl
  | some f => simp only [reidE, setTotal_reid]

theorem resetUseable_reid : (reidSys r s).resetUseable (r.to id) = reidSys r (s.resetUseable id) := by
  unfold Sys.resetUseable
  rw [setUseable_reid]

theorem getClock_reid : (reidSys r s).getClock (r.to id) = reidSys r (s.getClock id) := by
  unfold Sys.getClock
  rw [getClocks_reid]
  cases Dict.get? s.clocks id with
  | some c => rfl
  | none => exact (setClock_reid r s id Clock.new).symm

theorem incrClock_reid (ts : TimeScale) :
    (reidSys r s).incrClock (r.to id) ts = reidE r (s.incrClock id ts) := by
  unfold Sys.incrClock
  rw [sysClock_reid]
  cases (s.clock id).incr ts with
  | error e => rfl
  | ok c => exact congrArg Except.ok (setClock_reid r s id c).symm

theorem deleteCounts_reid :
    (reidSys r s).deleteCounts (r.to id) = reidSys r (s.deleteCounts id) := by
  unfold Sys.deleteCounts reidSys reidView
  simp only [delete_reid]

theorem fire_reid (n : α) : (reidSys r s).fire (r.to id) n = reidE r (s.fire id n) := by
  unfold Sys.fire
  rw [getTotal_reid, getUseable_reid]
  have h : (reidSys r s).nodes = s.nodes := rfl
  rw [h]
  cases Dict.get? s.countsTotal id with
  | none => rfl
  | some f =>
    by_cases hn : n ∈ s.nodes
    · simp only [hn, if_true]
      cases Dict.get? s.countsUseable id with
      | none => rfl
      | some u =>
        simp only [reidE]
        unfold reidSys reidView
        simp only [set_reid]
    · simp only [hn, if_false, reidE]

theorem evalCond_reid (c : Cond α κ W) :
    (reidSys r s).evalCond (r.to id) (reidCond r c) = reidP r (s.evalCond id c) := by
  unfold Sys.evalCond
  have e : eval (reidSys r s).toView (r.to id) (reidCond r c) (reidSys r s).store =
    reidResult r (eval s.toView id c s.store) := eval_reid r s.toView id c s.store
  rw [e]
  rfl

theorem getCond_reid (n : α) :
    Dict.get? (reidSys r s).conds n = (Dict.get? s.conds n).map (reidCond r) :=
  get?_values (reidCond r) s.conds n

theorem considerNode_reid (n : α) :
    (reidSys r s).considerNode (r.to id) n = reidP r (s.considerNode id n) := by
  unfold Sys.considerNode
  rw [getCond_reid]
  cases Dict.get? s.conds n with
  | none => rfl
  | some c =>
    simp only [Option.map_some, evalCond_reid]
    rcases s.evalCond id c with ⟨s', x⟩
    cases x with
    | error e => rfl
    | ok b =>
      cases b with
      | false => rfl
      | true =>
        simp only [reidP, fire_reid]
        cases s'.fire id n <;> rfl

theorem record_reid (abs : Bool) (set : List α) :
    (reidSys r s).record (r.to id) abs set = reidP r (s.record id abs set) := by
  unfold Sys.record
  rw [getList_reid]
  cases Dict.get? s.execList id with
  | none => rfl
  | some l =>
    have h := setList_reid r s id (l ++ [set])
    cases abs with
    | false => exact Prod.ext h.symm rfl
    | true =>
      simp only [if_true]
      rw [getStamps_reid]
      cases Dict.get? s.timestamps id with
      | none => exact Prod.ext h.symm rfl
      | some ts =>
        simp only [reidP]
        refine Prod.ext ?_ rfl
        have h2 := setStamps_reid r { s with execList := Dict.set s.execList id (l ++ [set]) } id
          (ts ++ [(s.clock id).time])
        rw [h] at h2
        refine Eq.trans ?_ h2.symm
        have h3 : View.clock ({ reidSys r s with
          execList := Dict.set (reidSys r s).execList (r.to id) (l ++ [set]) } : Sys α μ W).toView (r.to id) =
          s.clock id := sysClock_reid r s id
        rw [h3]

end

/-! ## The beginning of a run -/

theorem alloc_reid (s : Sys α κ W) (k : Nat) : (reidSys r s).alloc k = reidSys r (s.alloc k) := rfl

theorem defaultCond_reid (o : OId) (ds : List α) :
    (Sys.defaultCond o ds : Cond α μ W) = reidCond r (Sys.defaultCond o ds) := by
  match ds with
  | [] => rfl
  | [d] => rfl
  | d :: e :: ds =>
    show Cond.all o _ = Cond.all o _
    congr 1
    rw [reidConds_map, List.map_map]
    rfl

theorem addBasic_reid (s : Sys α κ W) (n : α) (c : Cond α κ W) :
    (reidSys r s).addBasic n (reidCond r c) = reidSys r (s.addBasic n c) := by
  unfold Sys.addBasic
  have h1 : setOwner (some n) (reidCond r c) (reidSys r s).store =
      reidStore r (setOwner (some n) c s.store) := setOwner_reid r (some n) c s.store
  have h2 : Dict.set (reidSys r s).conds n (reidCond r c) = _ :=
    (values_set (reidCond r) s.conds n c).symm
  rw [h1, h2]
  rfl

theorem validateConditions_reid (ns : List α) (s : Sys α κ W) :
    Sys.validateConditions ns (reidSys r s) = reidP r (Sys.validateConditions ns s) := by
  induction ns generalizing s with
  | nil => rfl
  | cons n ns ih =>
    unfold Sys.validateConditions
    have h2 : (reidSys r s).graph = s.graph := rfl
    rw [getCond_reid, h2]
    cases Dict.get? s.conds n with
    | some c => exact ih s
    | none =>
      cases Dict.get? s.graph n with
      | none => rfl
      | some deps =>
        simp only [Option.map_none, alloc_reid]
        have h3 : (reidSys r s).store.fresh = s.store.fresh := rfl
        rw [h3, defaultCond_reid r, addBasic_reid]
        exact ih _

theorem validateRunState_reid (s : Sys α κ W) :
    (reidSys r s).validateRunState = reidP r s.validateRunState := by
  unfold Sys.validateRunState
  have h : (reidSys r s).graph = s.graph := rfl
  rw [h]
  cases toposort s.graph with
  | error e => rfl
  | ok q => exact validateConditions_reid r s.nodes s

theorem absoluteConds_reid (s : Sys α κ W) (a : RunArgs α κ W) :
    (reidSys r s).absoluteConds (reidArgs r a) = (s.absoluteConds a).map (reidCond r) := by
  unfold Sys.absoluteConds
  rw [← filter_rename (reidCond r) Cond.isAbsolute Cond.isAbsolute (isAbsolute_reid r)]
  congr 1
  rw [List.map_append]
  congr 1
  · unfold reidSys
    rw [List.map_map, List.map_map]
    rfl
  · show reidCond r a.seq :: reidCond r a.esu :: reidConds r a.others = _
    rw [reidConds_map]
    rfl

theorem absoluteUnit_reid (s : Sys α κ W) (cs : List (Cond α κ W)) :
    (reidSys r s).absoluteUnit (cs.map (reidCond r)) = s.absoluteUnit cs := by
  unfold Sys.absoluteUnit
  have h : ((cs.map (reidCond r)).flatMap fun c => c.intervals ++
      (if (reidSys r s).mode = Mode.exactTime then c.fixedPoints else [])) =
      cs.flatMap fun c => c.intervals ++ (if s.mode = Mode.exactTime then c.fixedPoints else []) := by
    rw [List.flatMap_map]
    congr 1
    funext c
    rw [intervals_reid, points_reid]
    rfl
  rw [h]
  rfl

theorem firstPoint_reid (c : Cond α κ W) : Sys.firstPoint (reidCond r c) = Sys.firstPoint c := by
  unfold Sys.firstPoint
  rw [points_reid]

theorem advanceTo_reid (x : Rat) (cs : List (Cond α κ W)) :
    Sys.advanceTo x (cs.map (reidCond r)) = Sys.advanceTo x cs := by
  cases cs with
  | nil => rfl
  | cons c cs =>
    show max x _ = max x _
    rw [List.foldl_map, firstPoint_reid]
    simp only [firstPoint_reid]

theorem setupAbsolute_reid (s : Sys α κ W) (a : RunArgs α κ W) :
    (reidSys r s).setupAbsolute (reidArgs r a) = reidP r (s.setupAbsolute a) := by
  unfold Sys.setupAbsolute
  rw [absoluteConds_reid]
  have hc : (reidSys r s).clock (reidArgs r a).id = s.clock a.id := sysClock_reid r s a.id
  by_cases h : s.absoluteConds a = []
  · simp only [h, List.map_nil, if_true, hc]
    exact Prod.ext (setClock_reid r s a.id _).symm rfl
  · have h2 : (s.absoluteConds a).map (reidCond r) ≠ [] := by simpa using h
    simp only [if_neg h, if_neg h2, absoluteUnit_reid, advanceTo_reid, hc]
    cases s.absoluteUnit (s.absoluteConds a) with
    | error e => rfl
    | ok u => exact Prod.ext (setClock_reid r s a.id _).symm rfl

theorem start_reid (s : Sys α κ W) (a : RunArgs α κ W) :
    (reidSys r s).start (reidArgs r a) = reidP r (s.start a) := by
  unfold Sys.start
  rw [validateRunState_reid]
  rcases s.validateRunState with ⟨s1, _ | e⟩
  · simp only [reidP]
    have h1 : (reidSys r s1).getClock (reidArgs r a).id = reidSys r (s1.getClock a.id) :=
      getClock_reid r s1 a.id
    rw [h1, setupAbsolute_reid]
    rcases (s1.getClock a.id).setupAbsolute a with ⟨s2, e | abs⟩
    · rfl
    · simp only [reidP]
      have h2 : (reidSys r s2).initCounts (reidArgs r a).id (reidArgs r a).base =
        reidP r (s2.initCounts a.id a.base) := initCounts_reid r s2 a.id a.base
      rw [h2]
      rcases s2.initCounts a.id a.base with ⟨s3, _ | e⟩
      · simp only [reidP]
        have h3 : (reidSys r s3).resetUseable (reidArgs r a).id =
          reidSys r (s3.resetUseable a.id) := resetUseable_reid r s3 a.id
        have h4 : (reidSys r (s3.resetUseable a.id)).resetTotal .environment_state_update
            (reidArgs r a).id = reidE r ((s3.resetUseable a.id).resetTotal
              .environment_state_update a.id) := resetTotal_reid r _ a.id _
        rw [h3, h4]
        cases (s3.resetUseable a.id).resetTotal .environment_state_update a.id <;> rfl
      · rfl
  · rfl

/-! ## The loop -/

theorem continues_reid (s : Sys α κ W) (a : RunArgs α κ W) :
    (reidSys r s).continues (reidArgs r a) = reidP r (s.continues a) := by
  unfold Sys.continues
  have h : ∀ (s : Sys α κ W) c, (reidSys r s).evalCond (reidArgs r a).id (reidCond r c) =
    reidP r (s.evalCond a.id c) := fun s c => evalCond_reid r s a.id c
  have e1 : (reidArgs r a).esu = reidCond r a.esu := rfl
  have e2 : (reidArgs r a).seq = reidCond r a.seq := rfl
  rw [e1, e2, h]
  rcases s.evalCond a.id a.esu with ⟨s', e | b⟩
  · rfl
  · cases b with
    | true => rfl
    | false =>
      simp only [reidP, h]
      rcases s'.evalCond a.id a.seq with ⟨s'', e | b⟩ <;> rfl

theorem endPass_reid (s : Sys α κ W) (a : RunArgs α κ W) (abs changed : Bool) :
    (reidSys r s).endPass (reidArgs r a) abs changed = reidP r (s.endPass a abs changed) := by
  unfold Sys.endPass
  by_cases hc : (!changed && !abs) = true
  · rw [if_pos hc, if_pos hc]
    have h : (reidSys r s).record (reidArgs r a).id false [] = reidP r (s.record a.id false []) :=
      record_reid r s a.id false []
    rw [h]
    rcases s.record a.id false [] with ⟨s', _ | e⟩ <;> rfl
  · rw [if_neg hc, if_neg hc]
    have h : (reidSys r s).incrClock (reidArgs r a).id .pass = reidE r (s.incrClock a.id .pass) :=
      incrClock_reid r s a.id .pass
    rw [h]
    cases s.incrClock a.id .pass <;> rfl

theorem endChoice_reid (s : Sys α κ W) (a : RunArgs α κ W) (abs : Bool) (c : Choice α) :
    (reidSys r s).endChoice (reidArgs r a) abs c = reidP r (s.endChoice a abs c) := by
  unfold Sys.endChoice
  simp only
  by_cases hc : (!c.exec.isEmpty || abs) = true
  · rw [if_pos hc, if_pos hc]
    have h : (reidSys r s).record (reidArgs r a).id abs c.exec =
      reidP r (s.record a.id abs c.exec) := record_reid r s a.id abs c.exec
    rw [h]
    rcases s.record a.id abs c.exec with ⟨s', _ | e⟩ <;> rfl
  · rw [if_neg hc, if_neg hc]; rfl

theorem choose_reid (s : Sys α κ W) (a : RunArgs α κ W) (abs : Bool) (c : Choice α) :
    (reidSys r s).choose (reidArgs r a) abs c = reidP r (s.choose a abs c) := by
  obtain ⟨idx, changed, layer, exec, todo, again⟩ := c
  unfold Sys.choose
  cases todo with
  | nil =>
    cases again with
    | true => rfl
    | false => exact endChoice_reid r s a abs ⟨idx, changed, layer, exec, [], false⟩
  | cons n ns =>
    by_cases hn : n ∈ exec
    · simp only [if_pos hn]; rfl
    · simp only [if_neg hn]
      have h : (reidSys r s).considerNode (reidArgs r a).id n =
        reidP r (s.considerNode a.id n) := considerNode_reid r s a.id n
      rw [h]
      rcases s.considerNode a.id n with ⟨s', e | b⟩
      · rfl
      · cases b <;> rfl

theorem finish_reid (s : Sys α κ W) (a : RunArgs α κ W) :
    (reidSys r s).finish (reidArgs r a) = reidP r (s.finish a) := by
  unfold Sys.finish
  have h : (if (reidArgs r a).skip then Except.ok (reidSys r s)
      else (reidSys r s).incrClock (reidArgs r a).id .environment_state_update) =
      reidE r (if a.skip then .ok s else s.incrClock a.id .environment_state_update) := by
    have e : (reidArgs r a).skip = a.skip := rfl
    rw [e]
    cases a.skip with
    | true => rfl
    | false => exact incrClock_reid r s a.id .environment_state_update
  rw [h]
  cases (if a.skip then .ok s else s.incrClock a.id .environment_state_update) with
  | error e => rfl
  | ok s' =>
    simp only [reidE]
    have h : (reidSys r s').evalCond (reidArgs r a).id (reidArgs r a).seq =
      reidP r (s'.evalCond a.id a.seq) := evalCond_reid r s' a.id a.seq
    rw [h]
    rcases s'.evalCond a.id a.seq with ⟨s'', e | b⟩ <;> rfl

/-- A step under the new ids is the same step. -/
theorem step_reid (s : Sys α κ W) (a : RunArgs α κ W) (abs : Bool) (pc : PC α) :
    (reidSys r s).step (reidArgs r a) abs pc = reidP r (s.step a abs pc) := by
  have hi : ∀ (s : Sys α κ W) ts, (reidSys r s).incrClock (reidArgs r a).id ts =
    reidE r (s.incrClock a.id ts) := fun s ts => incrClock_reid r s a.id ts
  cases pc with
  | outer =>
    simp only [Sys.step, continues_reid]
    rcases s.continues a with ⟨s', e | b⟩
    · rfl
    · cases b with
      | false => exact finish_reid r s' a
      | true =>
        simp only [reidP]
        have h : (reidSys r s').resetTotal .pass (reidArgs r a).id =
          reidE r (s'.resetTotal .pass a.id) := resetTotal_reid r s' a.id .pass
        rw [h]
        cases s'.resetTotal .pass a.id <;> rfl
  | inner idx changed =>
    simp only [Sys.step]
    have h : (reidSys r s).queue[idx]? = s.queue[idx]? := rfl
    rw [h]
    cases s.queue[idx]? with
    | none => exact endPass_reid r s a abs changed
    | some layer =>
      simp only [continues_reid]
      rcases s.continues a with ⟨s', e | b⟩
      · rfl
      · cases b with
        | false => exact endPass_reid r s' a abs changed
        | true => rfl
  | choosing c => exact choose_reid r s a abs c
  | yielded idx changed =>
    simp only [Sys.step, hi]
    cases s.incrClock a.id .consideration_set_execution <;> rfl
  | yieldedEmpty =>
    simp only [Sys.step, hi]
    cases s.incrClock a.id .consideration_set_execution with
    | error e => rfl
    | ok s' =>
      simp only [reidE, hi]
      cases s'.incrClock a.id .pass <;> rfl
  | returned => rfl
  | raised e => rfl

theorem new_reid (g : Graph α) (mode : Mode) (id : Option κ) (unit : Rat) (w : World α κ W) :
    Sys.new g mode (r.to id) unit (reidWorld r w) = reidSys r (Sys.new g mode id unit w) := rfl

end

end GS
