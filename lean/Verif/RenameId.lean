import Verif.Spec.RenameId
import Verif.RenameRun
/-!
# Giving execution ids other names: everything is done alike
-/

set_option linter.unusedSectionVars false

namespace GS
open Spec
variable {α κ μ W γ : Type _} [DecidableEq α] [DecidableEq κ] [DecidableEq μ]

section
variable (r : IdRenaming κ μ)

/-! ## There and back -/

theorem reidDict_back (d : Dict (Option κ) γ) : reidDict r.symm (reidDict r d) = d := by
  unfold reidDict
  rw [List.map_map]
  have : ((fun p : Option μ × γ => (r.symm.to p.1, p.2)) ∘ fun p => (r.to p.1, p.2)) = id :=
    funext fun p => Prod.ext (r.back_to p.1) rfl
  rw [this, List.map_id]

theorem reidWorld_back (w : World α κ W) : reidWorld r.symm (reidWorld r w) = w := by
  unfold reidWorld Renaming.symm
  simp only [r.back_to]

theorem reidView_back (v : View α κ W) : reidView r.symm (reidView r v) = v := by
  unfold reidView
  simp only [reidDict_back, reidWorld_back]

theorem reidFunc_view (f : View α κ W → Option κ → Option α → Except Err Bool) (v : View α κ W)
    (id : Option κ) (o : Option α) : reidFunc r f (reidView r v) (r.to id) o = f v id o := by
  unfold reidFunc
  rw [reidView_back, r.back_to]

theorem reidFunc_back (f : View α κ W → Option κ → Option α → Except Err Bool) :
    reidFunc r.symm (reidFunc r f) = f := by
  funext v id o
  unfold reidFunc
  show f (reidView r.symm (reidView r v)) (r.back (r.to id)) o = _
  rw [reidView_back, r.back_to]

theorem reidLeaf_back (k : Leaf α κ W) : reidLeaf r.symm (reidLeaf r k) = k := by
  cases k <;> first
    | rfl
    | (simp only [reidLeaf, reidFunc_back]; done)

mutual
theorem reidCond_back : ∀ c : Cond α κ W, reidCond r.symm (reidCond r c) = c
  | .leaf o k => by simp only [reidCond, reidLeaf_back]
  | .whileNot o f => by simp only [reidCond, reidFunc_back]
  | .all o cs => by simp only [reidCond, reidConds_back cs]
  | .any o cs => by simp only [reidCond, reidConds_back cs]
  | .not o c => by simp only [reidCond, reidCond_back c]
  | .nwhen o c n => by simp only [reidCond, reidCond_back c]
theorem reidConds_back : ∀ cs : List (Cond α κ W), reidConds r.symm (reidConds r cs) = cs
  | [] => rfl
  | c :: cs => by simp only [reidConds, reidCond_back c, reidConds_back cs]
end

theorem reidStore_back (st : Store α κ) : reidStore r.symm (reidStore r st) = st := by
  unfold reidStore Renaming.symm
  simp only [r.back_to]

theorem reidSys_back (s : Sys α κ W) : reidSys r.symm (reidSys r s) = s := by
  unfold reidSys
  simp only [reidView_back, reidStore_back, List.map_map]
  have : ((fun p : α × Cond α μ W => (p.1, reidCond r.symm p.2)) ∘
      fun p : α × Cond α κ W => (p.1, reidCond r p.2)) = id :=
    funext fun p => Prod.ext rfl (reidCond_back r p.2)
  rw [this, List.map_id]

theorem reidArgs_back (a : RunArgs α κ W) : reidArgs r.symm (reidArgs r a) = a := by
  obtain ⟨id, base, esu, seq, others, skip⟩ := a
  unfold reidArgs
  simp only [reidCond_back, reidConds_back]
  have h1 : r.symm.to (r.to id) = id := r.back_to id
  have h2 : (base.map r.to).map r.symm.to = base := by
    cases base with
    | none => rfl
    | some b => exact congrArg some (r.back_to b)
  rw [h1, h2]

theorem reidGen_back (g : Gen α κ W) : reidGen r.symm (reidGen r g) = g := by
  unfold reidGen
  simp only [reidArgs_back]

theorem reidLog_back (l : List (Option κ × Entry α κ W)) : reidLog r.symm (reidLog r l) = l := by
  unfold reidLog
  rw [List.map_map]
  have : ((fun p : Option μ × Entry α μ W => (r.symm.to p.1,
        (⟨reidSys r.symm p.2.before, p.2.ev, reidSys r.symm p.2.after⟩ : Entry α κ W))) ∘
      fun p : Option κ × Entry α κ W => (r.to p.1,
        (⟨reidSys r p.2.before, p.2.ev, reidSys r p.2.after⟩ : Entry α μ W))) = id := by
    funext p
    refine Prod.ext (r.back_to p.1) ?_
    show (⟨reidSys r.symm (reidSys r p.2.before), p.2.ev, reidSys r.symm (reidSys r p.2.after)⟩ :
      Entry α κ W) = p.2
    rw [reidSys_back, reidSys_back]
  rw [this, List.map_id]

/-! ## Dicts -/

theorem get?_reid (d : Dict (Option κ) γ) (k : Option κ) :
    Dict.get? (reidDict r d) (r.to k) = Dict.get? d k := by
  have h := get?_keys r (fun x : γ => x) d k
  rw [show reidDict r d = d.map fun p => (r.to p.1, (fun x : γ => x) p.2) from rfl, h]
  cases Dict.get? d k <;> rfl

theorem set_reid (d : Dict (Option κ) γ) (k : Option κ) (v : γ) :
    reidDict r (Dict.set d k v) = Dict.set (reidDict r d) (r.to k) v :=
  keys_set r (fun x : γ => x) d k v

theorem delete_reid (d : Dict (Option κ) γ) (k : Option κ) :
    reidDict r (Dict.delete d k) = Dict.delete (reidDict r d) (r.to k) := by
  unfold reidDict Dict.delete
  refine (filter_rename (fun p : Option κ × γ => (r.to p.1, p.2))
    (fun e => decide (e.1 ≠ k)) _ ?_ d).symm
  intro p
  simp [r.inj]

/-! ## Views -/

section
variable (v : View α κ W) (id : Option κ)

theorem clock_reid : (reidView r v).clock (r.to id) = v.clock id := by
  unfold View.clock
  rw [show Dict.get? (reidView r v).clocks (r.to id) = Dict.get? v.clocks id from get?_reid r _ _]

theorem total_reid (ts : TimeScale) (n : α) :
    (reidView r v).total (r.to id) ts n = v.total id ts n := by
  unfold View.total
  rw [show Dict.get? (reidView r v).countsTotal (r.to id) = Dict.get? v.countsTotal id from
    get?_reid r _ _]
  rfl

theorem useable_reid (n : α) (b : Option α) :
    (reidView r v).useable (r.to id) n b = v.useable id n b := by
  unfold View.useable
  rw [show Dict.get? (reidView r v).countsUseable (r.to id) = Dict.get? v.countsUseable id from
    get?_reid r _ _]
  rfl

theorem timeInterval_reid (o : Option α) (rep st fin : Option Qty) (si ei : Bool) :
    timeIntervalFunc (reidView r v) (r.to id) o rep st fin si ei =
      timeIntervalFunc v id o rep st fin si ei := by
  unfold timeIntervalFunc
  simp only [clock_reid]
  rfl

theorem relTime_reid (q ts : TimeScale) (f : Int → Bool) :
    relTime (reidView r v) (r.to id) q ts f = relTime v id q ts f := by
  unfold relTime
  rw [clock_reid]

theorem callCount_reid (ts : TimeScale) (d : α) (f : Int → Bool) :
    callCount (reidView r v) (r.to id) ts d f = callCount v id ts d f := by
  unfold callCount; rw [total_reid]

theorem sumCalls_reid (ts : TimeScale) (ds : List α) :
    sumCalls (reidView r v) (r.to id) ts ds = sumCalls v id ts ds := by
  induction ds with
  | nil => rfl
  | cons d ds ih => unfold sumCalls; rw [total_reid, ih]

theorem allHaveRun_reid (ts : TimeScale) (ds : List α) :
    allHaveRunFunc (reidView r v) (r.to id) ts ds = allHaveRunFunc v id ts ds := by
  induction ds with
  | nil => rfl
  | cons d ds ih => unfold allHaveRunFunc; rw [total_reid, ih]

theorem isFinished_reid (d : α) :
    isFinished (reidView r v) (r.to id) d = isFinished v id d := by
  unfold isFinished
  have : (reidView r v).world.finished d (r.to id) = v.world.finished d id := by
    show v.world.finished d (r.back (r.to id)) = _
    rw [r.back_to]
  rw [this]

theorem finishedAny_reid (ds : List α) :
    finishedAny (reidView r v) (r.to id) ds = finishedAny v id ds := by
  induction ds with
  | nil => rfl
  | cons d ds ih => unfold finishedAny; rw [isFinished_reid, ih]

theorem finishedAll_reid (ds : List α) :
    finishedAll (reidView r v) (r.to id) ds = finishedAll v id ds := by
  induction ds with
  | nil => rfl
  | cons d ds ih => unfold finishedAll; rw [isFinished_reid, ih]

theorem justRan_reid (d : α) : justRanFunc (reidView r v) (r.to id) d = justRanFunc v id d := by
  unfold justRanFunc Dict.get
  rw [show Dict.get? (reidView r v).execList (r.to id) = Dict.get? v.execList id from
    get?_reid r _ _]

theorem threshold_reid (d : α) (p : Nat) (is : Option (List Idx)) (g : Option Nat) :
    thresholdValue (reidView r v).world (r.to id) d p is g = thresholdValue v.world id d p is g := by
  unfold thresholdValue
  have : getParameterValue (reidView r v).world (r.to id) d p g =
      getParameterValue v.world id d p g := by
    cases g with
    | none => rfl
    | some g => show v.world.getter g d p (r.back (r.to id)) = _; rw [r.back_to]; rfl
  rw [this]

theorem evalLeaf_reid (o : Option α) (k : Leaf α κ W) :
    evalLeaf (reidView r v) (r.to id) o (reidLeaf r k) = evalLeaf v id o k := by
  have hn : (reidView r v).nodes = v.nodes := rfl
  cases k <;> first
    | (simp only [reidLeaf, evalLeaf, reidFunc_view, timeInterval_reid, clock_reid,
        relTime_reid, callCount_reid, sumCalls_reid, useable_reid, justRan_reid, hn,
        allHaveRun_reid, isFinished_reid, finishedAny_reid, finishedAll_reid,
        threshold_reid]; done)
    | rfl

/-- The result of an evaluation. -/
def reidResult (x : EvalResult α κ) : EvalResult α μ := (x.1, reidStore r x.2)

theorem bumpSat_reid (st : Store α κ) (o : OId) :
    (reidStore r st).bumpSat o (r.to id) = reidStore r (st.bumpSat o id) := by
  unfold Store.bumpSat reidStore
  simp only [Store.mk.injEq, and_true, true_and]
  funext x i
  simp only [r.eq_to]

mutual
theorem eval_reid : ∀ (c : Cond α κ W) (st : Store α κ),
    eval (reidView r v) (r.to id) (reidCond r c) (reidStore r st) = reidResult r (eval v id c st)
  | .leaf o k, st => by
    simp only [reidCond, eval, reidResult]
    exact Prod.ext (evalLeaf_reid r v id (st.owner o) k) rfl
  | .whileNot o f, st => by
    simp only [reidCond, eval, reidResult]
    exact Prod.ext (congrArg notResult (reidFunc_view r f v id (st.owner o))) rfl
  | .all o cs, st => by
    simp only [reidCond, eval]; exact evalAll_reid cs st
  | .any o cs, st => by
    simp only [reidCond, eval]; exact evalAny_reid cs st
  | .not o c, st => by
    simp only [reidCond, eval, eval_reid c st, reidResult]
  | .nwhen o c n, st => by
    simp only [reidCond, eval]
    have h : (reidStore r st).sat o (r.to id) = st.sat o id := by
      show st.sat o (r.back (r.to id)) = _
      rw [r.back_to]
    rw [h]
    by_cases hn : (st.sat o id : Int) < n
    · rw [if_pos hn, if_pos hn, eval_reid c st]
      rcases eval v id c st with ⟨x, st'⟩
      cases x with
      | error e => rfl
      | ok b =>
        cases b with
        | false => rfl
        | true => exact Prod.ext rfl (bumpSat_reid r id st' o)
    · rw [if_neg hn, if_neg hn]; rfl
theorem evalAll_reid : ∀ (cs : List (Cond α κ W)) (st : Store α κ),
    evalAll (reidView r v) (r.to id) (reidConds r cs) (reidStore r st) =
      reidResult r (evalAll v id cs st)
  | [], st => rfl
  | c :: cs, st => by
    simp only [reidConds, evalAll, eval_reid c st]
    rcases eval v id c st with ⟨x, st'⟩
    cases x with
    | error e => rfl
    | ok b =>
      cases b with
      | true => exact evalAll_reid cs st'
      | false => rfl
theorem evalAny_reid : ∀ (cs : List (Cond α κ W)) (st : Store α κ),
    evalAny (reidView r v) (r.to id) (reidConds r cs) (reidStore r st) =
      reidResult r (evalAny v id cs st)
  | [], st => rfl
  | c :: cs, st => by
    simp only [reidConds, evalAny, eval_reid c st]
    rcases eval v id c st with ⟨x, st'⟩
    cases x with
    | error e => rfl
    | ok b =>
      cases b with
      | false => exact evalAny_reid cs st'
      | true => rfl
end

end

/-! ## Owners and absolute time -/

theorem oid_reid (c : Cond α κ W) : (reidCond r c).oid = c.oid := by
  cases c <;> rfl

mutual
theorem setOwner_reid (n : Option α) : ∀ (c : Cond α κ W) (st : Store α κ),
    setOwner n (reidCond r c) (reidStore r st) = reidStore r (setOwner n c st)
  | .leaf o k, st => rfl
  | .whileNot o f, st => rfl
  | .all o cs, st => by
    simp only [reidCond, setOwner]; exact setOwners_reid n cs (st.putOwner o n)
  | .any o cs, st => by
    simp only [reidCond, setOwner]; exact setOwners_reid n cs (st.putOwner o n)
  | .not o c, st => by
    simp only [reidCond, setOwner]; exact setOwner_reid n c (st.putOwner o n)
  | .nwhen o c k, st => by
    simp only [reidCond, setOwner]; exact setOwner_reid n c (st.putOwner o n)
theorem setOwners_reid (n : Option α) : ∀ (cs : List (Cond α κ W)) (st : Store α κ),
    setOwners n (reidConds r cs) (reidStore r st) = reidStore r (setOwners n cs st)
  | [], st => rfl
  | c :: cs, st => by
    simp only [reidConds, setOwners, oid_reid]
    have h : (reidStore r st).owner c.oid = st.owner c.oid := rfl
    rw [h]
    cases st.owner c.oid with
    | none => simp only [setOwner_reid n c st]; exact setOwners_reid n cs _
    | some m => exact setOwners_reid n cs _
end

theorem leafAbsolute_reid (k : Leaf α κ W) : (reidLeaf r k).isAbsolute = k.isAbsolute := by
  cases k <;> rfl

theorem leafIntervals_reid (k : Leaf α κ W) : (reidLeaf r k).intervals = k.intervals := by
  cases k with
  | timeInterval rep => cases rep <;> rfl
  | _ => rfl

theorem leafPoints_reid (k : Leaf α κ W) : (reidLeaf r k).fixedPoints = k.fixedPoints := by
  cases k <;> rfl

mutual
theorem isAbsolute_reid : ∀ c : Cond α κ W, (reidCond r c).isAbsolute = c.isAbsolute
  | .leaf o k => leafAbsolute_reid r k
  | .whileNot o f => rfl
  | .all o cs => by simp only [reidCond, Cond.isAbsolute]; exact anyAbsolute_reid cs
  | .any o cs => by simp only [reidCond, Cond.isAbsolute]; exact anyAbsolute_reid cs
  | .not o c => rfl
  | .nwhen o c k => rfl
theorem anyAbsolute_reid : ∀ cs : List (Cond α κ W), anyAbsolute (reidConds r cs) = anyAbsolute cs
  | [] => rfl
  | c :: cs => by
    simp only [reidConds, anyAbsolute, isAbsolute_reid c, anyAbsolute_reid cs]
end

mutual
theorem intervals_reid : ∀ c : Cond α κ W, (reidCond r c).intervals = c.intervals
  | .leaf o k => leafIntervals_reid r k
  | .whileNot o f => rfl
  | .all o cs => by simp only [reidCond, Cond.intervals]; exact intervalsOf_reid cs
  | .any o cs => by simp only [reidCond, Cond.intervals]; exact intervalsOf_reid cs
  | .not o c => rfl
  | .nwhen o c k => rfl
theorem intervalsOf_reid : ∀ cs : List (Cond α κ W), intervalsOf (reidConds r cs) = intervalsOf cs
  | [] => rfl
  | c :: cs => by
    simp only [reidConds, intervalsOf, isAbsolute_reid r c, intervals_reid c, intervalsOf_reid cs]
end

mutual
theorem points_reid : ∀ c : Cond α κ W, (reidCond r c).fixedPoints = c.fixedPoints
  | .leaf o k => leafPoints_reid r k
  | .whileNot o f => rfl
  | .all o cs => by simp only [reidCond, Cond.fixedPoints]; exact pointsOf_reid cs
  | .any o cs => by simp only [reidCond, Cond.fixedPoints]; exact pointsOf_reid cs
  | .not o c => rfl
  | .nwhen o c k => rfl
theorem pointsOf_reid : ∀ cs : List (Cond α κ W), fixedPointsOf (reidConds r cs) = fixedPointsOf cs
  | [] => rfl
  | c :: cs => by
    simp only [reidConds, fixedPointsOf, isAbsolute_reid r c, points_reid c, pointsOf_reid cs]
end

theorem reidConds_map (cs : List (Cond α κ W)) : reidConds r cs = cs.map (reidCond r) := by
  induction cs with
  | nil => rfl
  | cons c cs ih => simp only [reidConds, ih, List.map_cons]

end

end GS
