import Verif.Spec.Rename
/-!
# Renaming nodes: conditions are decided alike
-/

set_option linter.unusedSectionVars false

namespace GS
open Spec
variable {α β κ W : Type _} [DecidableEq α] [DecidableEq β] [DecidableEq κ]

namespace Spec.Renaming

theorem inj (r : Renaming α β) {x y : α} : r.to x = r.to y ↔ x = y :=
  ⟨fun h => by rw [← r.back_to x, h, r.back_to], fun h => h ▸ rfl⟩

theorem eq_to (r : Renaming α β) {x : α} {y : β} : y = r.to x ↔ r.back y = x :=
  ⟨fun h => by rw [h, r.back_to], fun h => by rw [← h, r.to_back]⟩

theorem mem (r : Renaming α β) {x : α} {l : List α} : r.to x ∈ l.map r.to ↔ x ∈ l := by
  rw [List.mem_map]
  exact ⟨fun ⟨y, h1, h2⟩ => r.inj.1 h2 ▸ h1, fun h => ⟨x, h, rfl⟩⟩

theorem mem_back (r : Renaming α β) {y : β} {l : List α} : y ∈ l.map r.to ↔ r.back y ∈ l := by
  rw [← r.mem, r.to_back]

theorem map_back (r : Renaming α β) (l : List α) : (l.map r.to).map r.back = l := by
  rw [List.map_map]
  have : r.back ∘ r.to = id := funext r.back_to
  rw [this, List.map_id]

theorem sets_back (r : Renaming α β) (l : List (List α)) :
    renameSets r.symm (renameSets r l) = l := by
  unfold renameSets
  rw [List.map_map]
  have : ((fun x => List.map r.symm.to x) ∘ fun x => List.map r.to x) = id :=
    funext fun x => r.map_back x
  rw [this, List.map_id]

theorem graph_back (r : Renaming α β) (g : Graph α) : renameGraph r.symm (renameGraph r g) = g := by
  unfold renameGraph
  rw [List.map_map]
  have : ((fun p : β × List β => (r.symm.to p.1, p.2.map r.symm.to)) ∘
      fun p : α × List α => (r.to p.1, p.2.map r.to)) = id := by
    funext p
    exact Prod.ext (r.back_to p.1) (r.map_back p.2)
  rw [this, List.map_id]

end Spec.Renaming

theorem renameValues_back {γ δ : Type _} {f : γ → δ} {g : δ → γ} (h : ∀ x, g (f x) = x)
    (d : Dict κ γ) : renameValues g (renameValues f d) = d := by
  unfold renameValues
  rw [List.map_map]
  have : ((fun p : κ × δ => (p.1, g p.2)) ∘ fun p : κ × γ => (p.1, f p.2)) = id := by
    funext p
    exact Prod.ext rfl (h p.2)
  rw [this, List.map_id]

theorem renameWorld_back (r : Renaming α β) (w : World α κ W) :
    renameWorld r.symm (renameWorld r w) = w := by
  unfold renameWorld Renaming.symm
  simp only [r.back_to]

theorem renameView_back (r : Renaming α β) (v : View α κ W) :
    renameView r.symm (renameView r v) = v := by
  unfold renameView
  simp only [r.sets_back, r.graph_back, renameWorld_back]
  have h1 : renameValues (κ := Option κ) (fun (f : TimeScale → β → Nat) ts n => f ts (r.symm.back n))
      (renameValues (fun (f : TimeScale → α → Nat) ts n => f ts (r.back n)) v.countsTotal) =
      v.countsTotal := renameValues_back (fun f => by simp only [Renaming.symm, r.back_to]) _
  have h2 : renameValues (κ := Option κ) (fun (f : β → β → Nat) a b => f (r.symm.back a) (r.symm.back b))
      (renameValues (fun (f : α → α → Nat) a b => f (r.back a) (r.back b)) v.countsUseable) =
      v.countsUseable := renameValues_back (fun f => by simp only [Renaming.symm, r.back_to]) _
  have h3 : renameValues (κ := Option κ) (renameSets r.symm) (renameValues (renameSets r) v.execList) =
      v.execList := renameValues_back (fun f => r.sets_back f) _
  have h4 : (v.nodes.map r.to).map r.symm.to = v.nodes := r.map_back _
  rw [h1, h2, h3, h4]

theorem option_back (r : Renaming α β) (o : Option α) : (o.map r.to).map r.back = o := by
  cases o <;> simp [r.back_to]

theorem renameFunc_view (r : Renaming α β)
    (f : View α κ W → Option κ → Option α → Except Err Bool) (v : View α κ W) (id : Option κ)
    (o : Option α) : renameFunc r f (renameView r v) id (o.map r.to) = f v id o := by
  unfold renameFunc
  rw [renameView_back, option_back]

/-! ## Dicts -/

theorem get?_values {γ δ : Type _} (f : γ → δ) (d : Dict κ γ) (k : κ) :
    Dict.get? (renameValues f d) k = (Dict.get? d k).map f := by
  induction d with
  | nil => rfl
  | cons p d ih =>
    obtain ⟨x, v⟩ := p
    unfold renameValues at ih ⊢
    rw [List.map_cons, Dict.get?_cons, Dict.get?_cons, ih]
    by_cases h : x = k <;> simp [h]

theorem values_set {γ δ : Type _} (f : γ → δ) (d : Dict κ γ) (k : κ) (v : γ) :
    renameValues f (Dict.set d k v) = Dict.set (renameValues f d) k (f v) := by
  induction d with
  | nil => rfl
  | cons p d ih =>
    obtain ⟨x, w⟩ := p
    unfold renameValues at ih ⊢
    rw [List.map_cons]
    unfold Dict.set
    by_cases h : x = k
    · simp [h]
    · simp only [h, if_false]
      rw [List.map_cons, ih]

theorem get?_keys {γ δ : Type _} (r : Renaming α β) (f : γ → δ) (d : Dict α γ) (k : α) :
    Dict.get? (d.map fun p => (r.to p.1, f p.2)) (r.to k) = (Dict.get? d k).map f := by
  induction d with
  | nil => rfl
  | cons p d ih =>
    obtain ⟨x, v⟩ := p
    rw [List.map_cons, Dict.get?_cons, Dict.get?_cons, ih]
    by_cases h : x = k
    · subst h; simp
    · have : r.to x ≠ r.to k := fun e => h (r.inj.1 e)
      simp [h, this]

theorem keys_set {γ δ : Type _} (r : Renaming α β) (f : γ → δ) (d : Dict α γ) (k : α) (v : γ) :
    (Dict.set d k v).map (fun p => (r.to p.1, f p.2)) =
      Dict.set (d.map fun p => (r.to p.1, f p.2)) (r.to k) (f v) := by
  induction d with
  | nil => rfl
  | cons p d ih =>
    obtain ⟨x, w⟩ := p
    rw [List.map_cons]
    unfold Dict.set
    by_cases h : x = k
    · subst h; simp
    · have : r.to x ≠ r.to k := fun e => h (r.inj.1 e)
      simp only [h, this, if_false]
      rw [List.map_cons, ih]

/-! ## Views -/

section
variable (r : Renaming α β) (v : View α κ W) (id : Option κ)

theorem clock_rename : (renameView r v).clock id = v.clock id := rfl

theorem exact_rename : (renameView r v).inExactTimeMode = v.inExactTimeMode := by
  unfold View.inExactTimeMode renameView renameSets
  simp

theorem total_rename (ts : TimeScale) (n : α) :
    (renameView r v).total id ts (r.to n) = v.total id ts n := by
  unfold View.total
  have h : Dict.get? (renameView r v).countsTotal id =
      (Dict.get? v.countsTotal id).map fun f ts n => f ts (r.back n) :=
    get?_values (fun (f : TimeScale → α → Nat) ts n => f ts (r.back n)) v.countsTotal id
  rw [h]
  have h2 : r.to n ∈ (renameView r v).nodes ↔ n ∈ v.nodes := r.mem
  cases Dict.get? v.countsTotal id with
  | none => rfl
  | some f => simp [h2, r.back_to]

theorem useable_rename (n : α) (b : Option α) :
    (renameView r v).useable id (r.to n) (b.map r.to) = v.useable id n b := by
  unfold View.useable
  have h : Dict.get? (renameView r v).countsUseable id =
      (Dict.get? v.countsUseable id).map fun f a b => f (r.back a) (r.back b) :=
    get?_values (fun (f : α → α → Nat) a b => f (r.back a) (r.back b)) v.countsUseable id
  rw [h]
  have h2 : ∀ n, r.to n ∈ (renameView r v).nodes ↔ n ∈ v.nodes := fun n => r.mem
  cases Dict.get? v.countsUseable id with
  | none => rfl
  | some f => cases b <;> simp [h2, r.back_to]

theorem layerOffset_rename (o : Option α) (i : Rat) (q : List (List α)) :
    layerOffset (o.map r.to) i (renameSets r q) = layerOffset o i q := by
  unfold layerOffset renameSets
  rw [List.zipIdx_map, List.foldl_map]
  congr 1
  funext off p
  cases o with
  | none => rfl
  | some o => simp [Prod.map, r.inj]

theorem timeInterval_rename (o : Option α) (rep st fin : Option Qty) (si ei : Bool) :
    timeIntervalFunc (renameView r v) id (o.map r.to) rep st fin si ei =
      timeIntervalFunc v id o rep st fin si ei := by
  unfold timeIntervalFunc
  have h : (renameView r v).queue = renameSets r v.queue := rfl
  simp only [exact_rename, clock_rename, h, layerOffset_rename]
  cases st <;> rfl

theorem relTime_rename (q ts : TimeScale) (f : Int → Bool) :
    relTime (renameView r v) id q ts f = relTime v id q ts f := rfl

theorem callCount_rename (ts : TimeScale) (d : α) (f : Int → Bool) :
    callCount (renameView r v) id ts (r.to d) f = callCount v id ts d f := by
  unfold callCount; rw [total_rename]

theorem sumCalls_rename (ts : TimeScale) (ds : List α) :
    sumCalls (renameView r v) id ts (ds.map r.to) = sumCalls v id ts ds := by
  induction ds with
  | nil => rfl
  | cons d ds ih => rw [List.map_cons]; unfold sumCalls; rw [total_rename, ih]

theorem allHaveRun_rename (ts : TimeScale) (ds : List α) :
    allHaveRunFunc (renameView r v) id ts (ds.map r.to) = allHaveRunFunc v id ts ds := by
  induction ds with
  | nil => rfl
  | cons d ds ih => rw [List.map_cons]; unfold allHaveRunFunc; rw [total_rename, ih]

theorem isFinished_rename (d : α) :
    isFinished (renameView r v) id (r.to d) = isFinished v id d := by
  unfold isFinished
  have : (renameView r v).world.finished (r.to d) id = v.world.finished d id := by
    show v.world.finished (r.back (r.to d)) id = _
    rw [r.back_to]
  rw [this]

theorem finishedAny_rename (ds : List α) :
    finishedAny (renameView r v) id (ds.map r.to) = finishedAny v id ds := by
  induction ds with
  | nil => rfl
  | cons d ds ih => rw [List.map_cons]; unfold finishedAny; rw [isFinished_rename, ih]

theorem finishedAll_rename (ds : List α) :
    finishedAll (renameView r v) id (ds.map r.to) = finishedAll v id ds := by
  induction ds with
  | nil => rfl
  | cons d ds ih => rw [List.map_cons]; unfold finishedAll; rw [isFinished_rename, ih]

theorem pyIndex_map {γ δ : Type _} (f : γ → δ) (l : List γ) (i : Int) :
    pyIndex (l.map f) i = match pyIndex l i with
      | .ok x => .ok (f x)
      | .error e => .error e := by
  unfold pyIndex
  simp only [List.length_map, List.getElem?_map]
  split
  · cases l[i.toNat]? <;> rfl
  · split
    · cases l[((l.length : Int) + i).toNat]? <;> rfl
    · rfl

theorem justRan_rename (d : α) :
    justRanFunc (renameView r v) id (r.to d) = justRanFunc v id d := by
  unfold justRanFunc Dict.get
  have h : Dict.get? (renameView r v).execList id =
      (Dict.get? v.execList id).map (renameSets r) := get?_values _ v.execList id
  rw [h]
  cases Dict.get? v.execList id with
  | none => rfl
  | some l =>
    simp only [Option.map_some]
    unfold renameSets
    rw [pyIndex_map]
    cases pyIndex l (-1) with
    | error e => rfl
    | ok x => simp [r.inj]

theorem nodesOr (ds : List α) :
    (if ds.map r.to = [] then (renameView r v).nodes else ds.map r.to) =
      (if ds = [] then v.nodes else ds).map r.to := by
  cases ds <;> rfl

theorem threshold_rename (d : α) (p : Nat) (is : Option (List Idx)) (g : Option Nat) :
    thresholdValue (renameView r v).world id (r.to d) p is g = thresholdValue v.world id d p is g := by
  unfold thresholdValue
  have : getParameterValue (renameView r v).world id (r.to d) p g =
      getParameterValue v.world id d p g := by
    cases g with
    | none => show v.world.attr (r.back (r.to d)) p = _; rw [r.back_to]; rfl
    | some g => show v.world.getter g (r.back (r.to d)) p id = _; rw [r.back_to]; rfl
  rw [this]

theorem evalLeaf_rename (o : Option α) (k : Leaf α κ W) :
    evalLeaf (renameView r v) id (o.map r.to) (renameLeaf r k) = evalLeaf v id o k := by
  cases k <;> first
    | (simp only [renameLeaf, evalLeaf, renameFunc_view, timeInterval_rename, clock_rename,
        relTime_rename, callCount_rename, sumCalls_rename, useable_rename, justRan_rename, nodesOr,
        allHaveRun_rename, isFinished_rename, finishedAny_rename, finishedAll_rename,
        threshold_rename]; done)
    | rfl

/-- Renaming the result of an evaluation. -/
def renameResult (x : EvalResult α κ) : EvalResult β κ := (x.1, renameStore r x.2)

mutual
theorem eval_rename : ∀ (c : Cond α κ W) (st : Store α κ),
    eval (renameView r v) id (renameCond r c) (renameStore r st) = renameResult r (eval v id c st)
  | .leaf o k, st => by
    simp only [renameCond, eval, renameResult]
    exact Prod.ext (evalLeaf_rename r v id (st.owner o) k) rfl
  | .whileNot o f, st => by
    simp only [renameCond, eval, renameResult]
    exact Prod.ext (congrArg notResult (renameFunc_view r f v id (st.owner o))) rfl
  | .all o cs, st => by
    simp only [renameCond, eval]; exact evalAll_rename cs st
  | .any o cs, st => by
    simp only [renameCond, eval]; exact evalAny_rename cs st
  | .not o c, st => by
    simp only [renameCond, eval, eval_rename c st, renameResult]
  | .nwhen o c n, st => by
    simp only [renameCond, eval]
    have h : (renameStore r st).sat o id = st.sat o id := rfl
    rw [h]
    by_cases hn : (st.sat o id : Int) < n
    · rw [if_pos hn, if_pos hn, eval_rename c st]
      rcases eval v id c st with ⟨x, st'⟩
      cases x with
      | error e => rfl
      | ok b => cases b <;> rfl
    · rw [if_neg hn, if_neg hn]; rfl
theorem evalAll_rename : ∀ (cs : List (Cond α κ W)) (st : Store α κ),
    evalAll (renameView r v) id (renameConds r cs) (renameStore r st) =
      renameResult r (evalAll v id cs st)
  | [], st => rfl
  | c :: cs, st => by
    simp only [renameConds, evalAll, eval_rename c st]
    rcases eval v id c st with ⟨x, st'⟩
    cases x with
    | error e => rfl
    | ok b =>
      cases b with
      | true => exact evalAll_rename cs st'
      | false => rfl
theorem evalAny_rename : ∀ (cs : List (Cond α κ W)) (st : Store α κ),
    evalAny (renameView r v) id (renameConds r cs) (renameStore r st) =
      renameResult r (evalAny v id cs st)
  | [], st => rfl
  | c :: cs, st => by
    simp only [renameConds, evalAny, eval_rename c st]
    rcases eval v id c st with ⟨x, st'⟩
    cases x with
    | error e => rfl
    | ok b =>
      cases b with
      | false => exact evalAny_rename cs st'
      | true => rfl
end

end

/-! ## Owners and absolute time -/

section
variable (r : Renaming α β)

theorem oid_rename (c : Cond α κ W) : (renameCond r c).oid = c.oid := by
  cases c <;> rfl

theorem putOwner_rename (st : Store α κ) (o : OId) (n : Option α) :
    (renameStore r st).putOwner o (n.map r.to) = renameStore r (st.putOwner o n) := by
  unfold Store.putOwner renameStore
  simp only [Store.mk.injEq, and_self, and_true]
  funext x
  split <;> rfl

mutual
theorem setOwner_rename (n : Option α) : ∀ (c : Cond α κ W) (st : Store α κ),
    setOwner (n.map r.to) (renameCond r c) (renameStore r st) = renameStore r (setOwner n c st)
  | .leaf o k, st => putOwner_rename r st o n
  | .whileNot o f, st => putOwner_rename r st o n
  | .all o cs, st => by
    simp only [renameCond, setOwner, putOwner_rename]; exact setOwners_rename n cs _
  | .any o cs, st => by
    simp only [renameCond, setOwner, putOwner_rename]; exact setOwners_rename n cs _
  | .not o c, st => by
    simp only [renameCond, setOwner, putOwner_rename]; exact setOwner_rename n c _
  | .nwhen o c k, st => by
    simp only [renameCond, setOwner, putOwner_rename]; exact setOwner_rename n c _
theorem setOwners_rename (n : Option α) : ∀ (cs : List (Cond α κ W)) (st : Store α κ),
    setOwners (n.map r.to) (renameConds r cs) (renameStore r st) = renameStore r (setOwners n cs st)
  | [], st => rfl
  | c :: cs, st => by
    simp only [renameConds, setOwners, oid_rename]
    have h : (renameStore r st).owner c.oid = (st.owner c.oid).map r.to := rfl
    rw [h]
    cases st.owner c.oid with
    | none => simp only [Option.map_none, setOwner_rename n c st]; exact setOwners_rename n cs _
    | some m => exact setOwners_rename n cs _
end

theorem leafAbsolute_rename (k : Leaf α κ W) : (renameLeaf r k).isAbsolute = k.isAbsolute := by
  cases k <;> rfl

theorem leafIntervals_rename (k : Leaf α κ W) : (renameLeaf r k).intervals = k.intervals := by
  cases k with
  | timeInterval rep => cases rep <;> rfl
  | _ => rfl

theorem leafPoints_rename (k : Leaf α κ W) : (renameLeaf r k).fixedPoints = k.fixedPoints := by
  cases k <;> rfl

mutual
theorem isAbsolute_rename : ∀ c : Cond α κ W, (renameCond r c).isAbsolute = c.isAbsolute
  | .leaf o k => leafAbsolute_rename r k
  | .whileNot o f => rfl
  | .all o cs => by simp only [renameCond, Cond.isAbsolute]; exact anyAbsolute_rename cs
  | .any o cs => by simp only [renameCond, Cond.isAbsolute]; exact anyAbsolute_rename cs
  | .not o c => rfl
  | .nwhen o c k => rfl
theorem anyAbsolute_rename : ∀ cs : List (Cond α κ W), anyAbsolute (renameConds r cs) = anyAbsolute cs
  | [] => rfl
  | c :: cs => by
    simp only [renameConds, anyAbsolute, isAbsolute_rename c, anyAbsolute_rename cs]
end

mutual
theorem intervals_rename : ∀ c : Cond α κ W, (renameCond r c).intervals = c.intervals
  | .leaf o k => leafIntervals_rename r k
  | .whileNot o f => rfl
  | .all o cs => by simp only [renameCond, Cond.intervals]; exact intervalsOf_rename cs
  | .any o cs => by simp only [renameCond, Cond.intervals]; exact intervalsOf_rename cs
  | .not o c => rfl
  | .nwhen o c k => rfl
theorem intervalsOf_rename : ∀ cs : List (Cond α κ W), intervalsOf (renameConds r cs) = intervalsOf cs
  | [] => rfl
  | c :: cs => by
    simp only [renameConds, intervalsOf, isAbsolute_rename r c, intervals_rename c,
      intervalsOf_rename cs]
end

mutual
theorem points_rename : ∀ c : Cond α κ W, (renameCond r c).fixedPoints = c.fixedPoints
  | .leaf o k => leafPoints_rename r k
  | .whileNot o f => rfl
  | .all o cs => by simp only [renameCond, Cond.fixedPoints]; exact pointsOf_rename cs
  | .any o cs => by simp only [renameCond, Cond.fixedPoints]; exact pointsOf_rename cs
  | .not o c => rfl
  | .nwhen o c k => rfl
theorem pointsOf_rename : ∀ cs : List (Cond α κ W), fixedPointsOf (renameConds r cs) = fixedPointsOf cs
  | [] => rfl
  | c :: cs => by
    simp only [renameConds, fixedPointsOf, isAbsolute_rename r c, points_rename c, pointsOf_rename cs]
end

theorem renameConds_map (cs : List (Cond α κ W)) : renameConds r cs = cs.map (renameCond r) := by
  induction cs with
  | nil => rfl
  | cons c cs ih => simp only [renameConds, ih, List.map_cons]

end

end GS
