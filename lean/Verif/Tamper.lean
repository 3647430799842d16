import Verif.Spec.Tamper
import Verif.RunDefault
import Verif.Restate
/-!
# Lemmas: schedulers that differ in what was recorded only
-/

set_option linter.unusedSectionVars false

namespace GS
open Spec
variable {α κ W : Type _} [DecidableEq α] [DecidableEq κ]
variable {s t s0 t0 : Sys α κ W} {a : RunArgs α κ W} {abs : Bool}
variable {h : History α κ W} {pc : PC α}

/-- The state with other records. -/
def putRecords (l : Dict (Option κ) (List (List α))) (ts : Dict (Option κ) (List Time)) (s : Sys α κ W) :
    Sys α κ W := { s with execList := l, timestamps := ts }

theorem evalLeaf_forgetful (v : View α κ W) (l ts) (id : Option κ) (o x : _) (k : Leaf α κ W)
    (hk : Forgetful (.leaf x k)) :
    evalLeaf { v with execList := l, timestamps := ts } id o k = evalLeaf v id o k := by
  cases k with
  | func f => simp only [evalLeaf]; exact hk v l ts id o
  | justRan d => exact hk.elim
  | afterNCallsCombined ds n t =>
    have : ∀ ds : List α, sumCalls { v with execList := l, timestamps := ts } id t ds = sumCalls v id t ds := by
      intro ds; induction ds with
      | nil => rfl
      | cons d ds ih => simp only [sumCalls, ih]; rfl
    simp only [evalLeaf, this]
  | allHaveRun ds t =>
    have : ∀ ds : List α, allHaveRunFunc { v with execList := l, timestamps := ts } id t ds =
        allHaveRunFunc v id t ds := by
      intro ds; induction ds with
      | nil => rfl
      | cons d ds ih => simp only [allHaveRunFunc, ih]; rfl
    simp only [evalLeaf, this]
  | whenFinishedAny ds =>
    have : ∀ ds : List α, finishedAny { v with execList := l, timestamps := ts } id ds = finishedAny v id ds := by
      intro ds; induction ds with
      | nil => rfl
      | cons d ds ih => simp only [finishedAny, ih]; rfl
    simp only [evalLeaf, this]
  | whenFinishedAll ds =>
    have : ∀ ds : List α, finishedAll { v with execList := l, timestamps := ts } id ds = finishedAll v id ds := by
      intro ds; induction ds with
      | nil => rfl
      | cons d ds ih => simp only [finishedAll, ih]; rfl
    simp only [evalLeaf, this]
  | _ => rfl

mutual
theorem eval_forgetful (v : View α κ W) (l ts) (id : Option κ) : ∀ (c : Cond α κ W) (st : Store α κ),
    Forgetful c → eval { v with execList := l, timestamps := ts } id c st = eval v id c st
  | .leaf o k, st, h => by simp only [eval]; rw [evalLeaf_forgetful v l ts id _ o k h]
  | .whileNot o f, st, h => by
    have h : ForgetfulFn f := h
    simp only [eval, h v l ts id]
  | .all _ cs, st, h => by simp only [eval]; exact evalAll_forgetful v l ts id cs st h
  | .any _ cs, st, h => by simp only [eval]; exact evalAny_forgetful v l ts id cs st h
  | .not _ c, st, h => by simp only [eval]; rw [eval_forgetful v l ts id c st h]
  | .nwhen _ c _, st, h => by simp only [eval]; rw [eval_forgetful v l ts id c st h]
theorem evalAll_forgetful (v : View α κ W) (l ts) (id : Option κ) : ∀ (cs : List (Cond α κ W)) (st : Store α κ),
    ForgetfulAll cs → evalAll { v with execList := l, timestamps := ts } id cs st = evalAll v id cs st
  | [], st, _ => by simp only [evalAll]
  | c :: cs, st, h => by
    simp only [evalAll]
    rw [eval_forgetful v l ts id c st h.1]
    split <;> first | exact evalAll_forgetful v l ts id cs _ h.2 | rfl
theorem evalAny_forgetful (v : View α κ W) (l ts) (id : Option κ) : ∀ (cs : List (Cond α κ W)) (st : Store α κ),
    ForgetfulAll cs → evalAny { v with execList := l, timestamps := ts } id cs st = evalAny v id cs st
  | [], st, _ => by simp only [evalAny]
  | c :: cs, st, h => by
    simp only [evalAny]
    rw [eval_forgetful v l ts id c st h.1]
    split <;> first | exact evalAny_forgetful v l ts id cs _ h.2 | rfl
end

theorem Spec.SameButRecords.refl (s : Sys α κ W) : SameButRecords s s := ⟨fun _ => rfl, fun _ => rfl, rfl⟩

theorem Spec.SameButRecords.put (hs : SameButRecords s t) : ∃ l ts, t = putRecords l ts s ∧
    (∀ id, (Dict.get? l id).isSome = (Dict.get? s.execList id).isSome) ∧
    (∀ id, (Dict.get? ts id).isSome = (Dict.get? s.timestamps id).isSome) :=
  ⟨_, _, hs.rest, hs.lists, hs.times⟩

/-- Two results of a function with an outcome: the outcomes are the same. -/
def Both {β : Type _} (x y : Sys α κ W × β) : Prop := y.2 = x.2 ∧ SameButRecords x.1 y.1

/-- Two results of a function that may raise. -/
inductive BothE : Except Err (Sys α κ W) → Except Err (Sys α κ W) → Prop
  | error (e : Err) : BothE (.error e) (.error e)
  | ok {s t : Sys α κ W} : SameButRecords s t → BothE (.ok s) (.ok t)

theorem BothE.out {x y : Except Err (Sys α κ W)} (k : BothE x y) :
    (∃ e, x = .error e ∧ y = .error e) ∨ ∃ s t, x = .ok s ∧ y = .ok t ∧ SameButRecords s t := by
  cases k with
  | error e => exact .inl ⟨e, rfl, rfl⟩
  | ok k => exact .inr ⟨_, _, rfl, rfl, k⟩

theorem evalCond_both {id : Option κ} {c : Cond α κ W} (hs : SameButRecords s t) (hc : Forgetful c) :
    Both (s.evalCond id c) (t.evalCond id c) := by
  obtain ⟨l, ts, rfl, h1, h2⟩ := hs.put
  have e : eval (putRecords l ts s).toView id c (putRecords l ts s).store = eval s.toView id c s.store :=
    eval_forgetful s.toView l ts id c s.store hc
  unfold Sys.evalCond
  rw [e]
  exact ⟨rfl, h1, h2, rfl⟩

theorem continues_both (hs : SameButRecords s t) (h1 : Forgetful a.esu) (h2 : Forgetful a.seq) :
    Both (s.continues a) (t.continues a) := by
  unfold Sys.continues
  have k := evalCond_both (id := a.id) hs h1
  revert k
  rcases s.evalCond a.id a.esu with ⟨s1, r⟩
  rcases t.evalCond a.id a.esu with ⟨t1, r'⟩
  rintro ⟨e, k⟩
  simp only at e k
  subst e
  rcases r' with e | _ | _
  · exact ⟨rfl, k⟩
  · have k2 := evalCond_both (id := a.id) k h2
    simp only
    revert k2
    rcases s1.evalCond a.id a.seq with ⟨s2, r⟩
    rcases t1.evalCond a.id a.seq with ⟨t2, r'⟩
    rintro ⟨e, k⟩
    simp only at e k
    subst e
    rcases r' with e | b
    · exact ⟨rfl, k⟩
    · exact ⟨rfl, k⟩
  · exact ⟨rfl, k⟩

theorem incr_both (hs : SameButRecords s t) (id : Option κ) (ts : TimeScale) :
    BothE (s.incrClock id ts) (t.incrClock id ts) := by
  obtain ⟨l, l', rfl, h1, h2⟩ := hs.put
  unfold Sys.incrClock
  have e : (putRecords l l' s).toView.clock id = s.toView.clock id := rfl
  rw [e]
  cases (s.clock id).incr ts with
  | error e => exact .error e
  | ok c => exact .ok ⟨h1, h2, rfl⟩

theorem resetTotal_both (hs : SameButRecords s t) (id : Option κ) (ts : TimeScale) :
    BothE (s.resetTotal ts id) (t.resetTotal ts id) := by
  obtain ⟨l, l', rfl, h1, h2⟩ := hs.put
  unfold Sys.resetTotal
  have e : (putRecords l l' s).countsTotal = s.countsTotal := rfl
  rw [e]
  cases Dict.get? s.countsTotal id with
  | none => exact .error _
  | some c => exact .ok ⟨h1, h2, rfl⟩

theorem isSome_set {γ : Type _} {d d' : Dict (Option κ) γ} (hd : ∀ i, (Dict.get? d' i).isSome = (Dict.get? d i).isSome)
    (id : Option κ) (x y : γ) (i : Option κ) :
    (Dict.get? (Dict.set d' id y) i).isSome = (Dict.get? (Dict.set d id x) i).isSome := by
  by_cases hi : i = id
  · subst hi; rw [Dict.get?_set_self, Dict.get?_set_self]; rfl
  · rw [Dict.get?_set_ne hi, Dict.get?_set_ne hi]; exact hd i

theorem record_both (hs : SameButRecords s t) (id : Option κ) (abs : Bool) (e : List α) :
    Both (s.record id abs e) (t.record id abs e) := by
  obtain ⟨l, l', rfl, h1, h2⟩ := hs.put
  unfold Sys.record
  have e1 : (putRecords l l' s).execList = l := rfl
  have e2 : (putRecords l l' s).timestamps = l' := rfl
  have k1 := h1 id
  have k2 := h2 id
  rw [e1]
  cases x1 : Dict.get? s.execList id with
  | none =>
    cases y1 : Dict.get? l id with
    | none => exact ⟨rfl, h1, h2, rfl⟩
    | some _ => rw [x1, y1] at k1; cases k1
  | some m =>
    cases y1 : Dict.get? l id with
    | none => rw [x1, y1] at k1; cases k1
    | some m' =>
      simp only
      cases abs with
      | false => exact ⟨rfl, isSome_set h1 id _ _, h2, rfl⟩
      | true =>
        simp only [if_true, e2]
        cases x2 : Dict.get? s.timestamps id with
        | none =>
          cases y2 : Dict.get? l' id with
          | none => exact ⟨rfl, isSome_set h1 id _ _, h2, rfl⟩
          | some _ => rw [x2, y2] at k2; cases k2
        | some _ =>
          cases y2 : Dict.get? l' id with
          | none => rw [x2, y2] at k2; cases k2
          | some _ => exact ⟨rfl, isSome_set h1 id _ _, isSome_set h2 id _ _, rfl⟩

theorem fire_both (hs : SameButRecords s t) (id : Option κ) (n : α) :
    BothE (s.fire id n) (t.fire id n) := by
  obtain ⟨l, l', rfl, h1, h2⟩ := hs.put
  unfold Sys.fire
  have e1 : (putRecords l l' s).countsTotal = s.countsTotal := rfl
  have e2 : (putRecords l l' s).countsUseable = s.countsUseable := rfl
  have e3 : (putRecords l l' s).nodes = s.nodes := rfl
  rw [e1, e2, e3]
  cases Dict.get? s.countsTotal id with
  | none => exact .error _
  | some f =>
    simp only
    split
    · cases Dict.get? s.countsUseable id with
      | none => exact .error _
      | some u => exact .ok ⟨h1, h2, rfl⟩
    · exact .error _

theorem considerNode_both (hs : SameButRecords s t) (ha : ∀ n c, Dict.get? s.conds n = some c → Forgetful c)
    (id : Option κ) (n : α) : Both (s.considerNode id n) (t.considerNode id n) := by
  unfold Sys.considerNode
  have e : t.conds = s.conds := by rw [hs.rest]
  rw [e]
  cases hc : Dict.get? s.conds n with
  | none => exact ⟨rfl, hs⟩
  | some c =>
    have k := evalCond_both (id := id) hs (ha n c hc)
    simp only
    revert k
    rcases s.evalCond id c with ⟨s1, r⟩
    rcases t.evalCond id c with ⟨t1, r'⟩
    rintro ⟨e, k⟩
    simp only at e k
    subst e
    rcases r' with e | _ | _
    · exact ⟨rfl, k⟩
    · exact ⟨rfl, k⟩
    · have k2 := fire_both k id n
      simp only
      rcases k2.out with ⟨e, e1, e2⟩ | ⟨_, _, e1, e2, k3⟩
      · rw [e1, e2]; exact ⟨rfl, k⟩
      · rw [e1, e2]; exact ⟨rfl, k3⟩

theorem endPass_both (hs : SameButRecords s t) (ch : Bool) :
    Both (s.endPass a abs ch) (t.endPass a abs ch) := by
  unfold Sys.endPass
  split
  · have k := record_both hs a.id false []
    revert k
    rcases s.record a.id false [] with ⟨s1, r⟩
    rcases t.record a.id false [] with ⟨t1, r'⟩
    rintro ⟨e, k⟩
    simp only at e k
    subst e
    cases r' <;> exact ⟨rfl, k⟩
  · have k := incr_both hs a.id .pass
    rcases k.out with ⟨e, e1, e2⟩ | ⟨_, _, e1, e2, k⟩
    · rw [e1, e2]; exact ⟨rfl, hs⟩
    · rw [e1, e2]; exact ⟨rfl, k⟩

theorem finish_both (hs : SameButRecords s t) (hq : Forgetful a.seq) :
    Both (s.finish a) (t.finish a) := by
  have k : BothE (if a.skip then .ok s else s.incrClock a.id .environment_state_update)
      (if a.skip then .ok t else t.incrClock a.id .environment_state_update) := by
    split
    · exact .ok hs
    · exact incr_both hs _ _
  unfold Sys.finish
  revert k
  generalize (if a.skip then Except.ok s else s.incrClock a.id .environment_state_update) = x
  generalize (if a.skip then Except.ok t else t.incrClock a.id .environment_state_update) = y
  intro k
  rcases k.out with ⟨e, e1, e2⟩ | ⟨_, _, e1, e2, k⟩
  · rw [e1, e2]; exact ⟨rfl, hs⟩
  · rw [e1, e2]
    have k2 := evalCond_both (id := a.id) k hq
    simp only
    revert k2
    rename_i s1 t1
    rcases s1.evalCond a.id a.seq with ⟨s2, r⟩
    rcases t1.evalCond a.id a.seq with ⟨t2, r'⟩
    rintro ⟨e, k⟩
    simp only at e k
    subst e
    cases r' <;> exact ⟨rfl, k⟩

theorem step_both (hs : SameButRecords s t) (ha : AllForgetful a s) (pc : PC α) :
    Both (s.step a abs pc) (t.step a abs pc) := by
  obtain ⟨ha, h1, h2⟩ := ha
  cases pc with
  | outer =>
    unfold Sys.step
    have k := continues_both hs h1 h2
    simp only
    revert k
    rcases s.continues a with ⟨s1, r⟩
    rcases t.continues a with ⟨t1, r'⟩
    rintro ⟨e, k⟩
    simp only at e k
    subst e
    rcases r' with e | _ | _
    · exact ⟨rfl, k⟩
    · exact finish_both k h2
    · have k2 := resetTotal_both k a.id .pass
      simp only
      rcases k2.out with ⟨e, e1, e2⟩ | ⟨_, _, e1, e2, k⟩
      · rw [e1, e2]; exact ⟨rfl, k⟩
      · rw [e1, e2]; exact ⟨rfl, k⟩
  | inner idx ch =>
    unfold Sys.step
    have e : t.queue = s.queue := by rw [hs.rest]
    simp only [e]
    cases s.queue[idx]? with
    | none => exact endPass_both hs ch
    | some layer =>
      have k := continues_both hs h1 h2
      simp only
      revert k
      rcases s.continues a with ⟨s1, r⟩
      rcases t.continues a with ⟨t1, r'⟩
      rintro ⟨e, k⟩
      simp only at e k
      subst e
      rcases r' with e | _ | _
      · exact ⟨rfl, k⟩
      · exact endPass_both k ch
      · exact ⟨rfl, k⟩
  | choosing c =>
    unfold Sys.step Sys.choose
    simp only
    cases c.todo with
    | nil =>
      simp only
      split
      · exact ⟨rfl, hs⟩
      · unfold Sys.endChoice
        simp only
        split
        · have k := record_both hs a.id abs c.exec
          revert k
          rcases s.record a.id abs c.exec with ⟨s1, r⟩
          rcases t.record a.id abs c.exec with ⟨t1, r'⟩
          rintro ⟨e, k⟩
          simp only at e k
          subst e
          cases r' <;> exact ⟨rfl, k⟩
        · exact ⟨rfl, hs⟩
    | cons n ns =>
      simp only
      split
      · exact ⟨rfl, hs⟩
      · have k := considerNode_both hs ha a.id n
        revert k
        rcases s.considerNode a.id n with ⟨s1, r⟩
        rcases t.considerNode a.id n with ⟨t1, r'⟩
        rintro ⟨e, k⟩
        simp only at e k
        subst e
        rcases r' with e | _ | _ <;> exact ⟨rfl, k⟩
  | yielded idx ch =>
    unfold Sys.step
    have k := incr_both hs a.id .consideration_set_execution
    simp only
    rcases k.out with ⟨e, e1, e2⟩ | ⟨_, _, e1, e2, k⟩
    · rw [e1, e2]; exact ⟨rfl, hs⟩
    · rw [e1, e2]; exact ⟨rfl, k⟩
  | yieldedEmpty =>
    unfold Sys.step
    have k := incr_both hs a.id .consideration_set_execution
    simp only
    rcases k.out with ⟨e, e1, e2⟩ | ⟨_, _, e1, e2, k⟩
    · rw [e1, e2]; exact ⟨rfl, hs⟩
    · rw [e1, e2]
      have k2 := incr_both k a.id .pass
      simp only
      rcases k2.out with ⟨e, e1, e2⟩ | ⟨_, _, e1, e2, k⟩
      · rw [e1, e2]; exact ⟨rfl, k⟩
      · rw [e1, e2]; exact ⟨rfl, k⟩
  | returned => exact ⟨rfl, hs⟩
  | raised e => exact ⟨rfl, hs⟩

/-! ## The start of a run -/

theorem validateConditions_both : ∀ (ns : List α) {s t : Sys α κ W}, SameButRecords s t →
    Both (Sys.validateConditions ns s) (Sys.validateConditions ns t)
  | [], _, _, hs => ⟨rfl, hs⟩
  | n :: ns, s, t, hs => by
    unfold Sys.validateConditions
    have e1 : t.conds = s.conds := by rw [hs.rest]
    have e2 : t.graph = s.graph := by rw [hs.rest]
    rw [e1, e2]
    cases Dict.get? s.conds n with
    | some c => exact validateConditions_both ns hs
    | none =>
      cases Dict.get? s.graph n with
      | none => exact ⟨rfl, hs⟩
      | some deps =>
        apply validateConditions_both ns
        obtain ⟨l, l', rfl, h1, h2⟩ := hs.put
        exact ⟨h1, h2, rfl⟩

theorem validateRunState_both (hs : SameButRecords s t) :
    Both s.validateRunState t.validateRunState := by
  unfold Sys.validateRunState
  have e1 : t.nodes = s.nodes := by rw [hs.rest]
  have e2 : t.graph = s.graph := by rw [hs.rest]
  rw [e1, e2]
  cases toposort s.graph with
  | error e => exact ⟨rfl, hs⟩
  | ok q => exact validateConditions_both _ hs

theorem getClock_both (hs : SameButRecords s t) (i : Option κ) :
    SameButRecords (s.getClock i) (t.getClock i) := by
  obtain ⟨l, l', rfl, h1, h2⟩ := hs.put
  unfold Sys.getClock
  have e : (putRecords l l' s).clocks = s.clocks := rfl
  rw [e]
  cases Dict.get? s.clocks i with
  | none => exact ⟨h1, h2, rfl⟩
  | some _ => exact ⟨h1, h2, rfl⟩

theorem setupAbsolute_both (hs : SameButRecords s t) :
    Both (s.setupAbsolute a) (t.setupAbsolute a) := by
  obtain ⟨l, l', rfl, h1, h2⟩ := hs.put
  unfold Sys.setupAbsolute
  have e4 : (putRecords l l' s).absoluteConds a = s.absoluteConds a := rfl
  have e5 : ∀ cs, (putRecords l l' s).absoluteUnit cs = s.absoluteUnit cs := fun _ => rfl
  have e6 : (putRecords l l' s).toView.clock a.id = s.toView.clock a.id := rfl
  simp only [e4, e5, e6]
  split
  · exact ⟨rfl, h1, h2, rfl⟩
  · cases s.absoluteUnit (s.absoluteConds a) with
    | error e => exact ⟨rfl, h1, h2, rfl⟩
    | ok u => exact ⟨rfl, h1, h2, rfl⟩

theorem initTotal_both (hs : SameButRecords s t) (i b) : BothE (s.initTotal i b) (t.initTotal i b) := by
  obtain ⟨l, l', rfl, h1, h2⟩ := hs.put
  unfold Sys.initTotal
  have e : (putRecords l l' s).countsTotal = s.countsTotal := rfl
  rw [e]
  cases Dict.get? s.countsTotal i with
  | some _ => exact .ok ⟨h1, h2, rfl⟩
  | none =>
    cases b with
    | none => exact .ok ⟨h1, h2, rfl⟩
    | some b =>
      simp only
      cases Dict.get? s.countsTotal b with
      | none => exact .error _
      | some _ => exact .ok ⟨h1, h2, rfl⟩

theorem initUseable_both (hs : SameButRecords s t) (i b) : BothE (s.initUseable i b) (t.initUseable i b) := by
  obtain ⟨l, l', rfl, h1, h2⟩ := hs.put
  unfold Sys.initUseable
  have e : (putRecords l l' s).countsUseable = s.countsUseable := rfl
  rw [e]
  cases Dict.get? s.countsUseable i with
  | some _ => exact .ok ⟨h1, h2, rfl⟩
  | none =>
    cases b with
    | none => exact .ok ⟨h1, h2, rfl⟩
    | some b =>
      simp only
      cases Dict.get? s.countsUseable b with
      | none => exact .error _
      | some _ => exact .ok ⟨h1, h2, rfl⟩

theorem initClock_both (hs : SameButRecords s t) (i b) : BothE (s.initClock i b) (t.initClock i b) := by
  obtain ⟨l, l', rfl, h1, h2⟩ := hs.put
  unfold Sys.initClock
  have e : (putRecords l l' s).clocks = s.clocks := rfl
  rw [e]
  cases Dict.get? s.clocks i with
  | some _ => exact .ok ⟨h1, h2, rfl⟩
  | none =>
    cases b with
    | none => exact .ok ⟨h1, h2, rfl⟩
    | some b =>
      simp only
      cases Dict.get? s.clocks b with
      | none => exact .error _
      | some _ => exact .ok ⟨h1, h2, rfl⟩

theorem initList_both (hs : SameButRecords s t) (i b) : BothE (s.initList i b) (t.initList i b) := by
  obtain ⟨l, l', rfl, h1, h2⟩ := hs.put
  unfold Sys.initList
  have e : (putRecords l l' s).execList = l := rfl
  rw [e]
  have k := h1 i
  cases x : Dict.get? s.execList i with
  | some _ =>
    cases y : Dict.get? l i with
    | some _ => exact .ok ⟨h1, h2, rfl⟩
    | none => rw [x, y] at k; cases k
  | none =>
    cases y : Dict.get? l i with
    | some _ => rw [x, y] at k; cases k
    | none =>
      cases b with
      | none => exact .ok ⟨isSome_set h1 i _ _, h2, rfl⟩
      | some b =>
        simp only
        have k := h1 b
        cases x : Dict.get? s.execList b with
        | none =>
          cases y : Dict.get? l b with
          | some _ => rw [x, y] at k; cases k
          | none => exact .error _
        | some _ =>
          cases y : Dict.get? l b with
          | none => rw [x, y] at k; cases k
          | some _ => exact .ok ⟨isSome_set h1 i _ _, h2, rfl⟩

theorem initCounts_both (hs : SameButRecords s t) (i b) : Both (s.initCounts i b) (t.initCounts i b) := by
  unfold Sys.initCounts
  have k := initTotal_both hs i b
  rcases k.out with ⟨e, e1, e2⟩ | ⟨_, _, e1, e2, k1⟩
  · rw [e1, e2]; exact ⟨rfl, hs⟩
  · rw [e1, e2]
    have k := initUseable_both k1 i b
    simp only
    rcases k.out with ⟨e, e1, e2⟩ | ⟨_, _, e1, e2, k2⟩
    · rw [e1, e2]; exact ⟨rfl, k1⟩
    · rw [e1, e2]
      have k := initList_both k2 i b
      simp only
      rcases k.out with ⟨e, e1, e2⟩ | ⟨_, _, e1, e2, k3⟩
      · rw [e1, e2]; exact ⟨rfl, k2⟩
      · rw [e1, e2]
        have k := initClock_both k3 i b
        simp only
        rcases k.out with ⟨e, e1, e2⟩ | ⟨_, _, e1, e2, k4⟩
        · rw [e1, e2]; exact ⟨rfl, k3⟩
        · rw [e1, e2]; exact ⟨rfl, k4⟩

theorem start_both (hs : SameButRecords s t) : Both (s.start a) (t.start a) := by
  unfold Sys.start
  have k := validateRunState_both hs
  revert k
  rcases s.validateRunState with ⟨s1, r⟩
  rcases t.validateRunState with ⟨t1, r'⟩
  rintro ⟨e, k⟩
  simp only at e k
  subst e
  rcases r' with _ | e
  · have k := setupAbsolute_both (a := a) (getClock_both k a.id)
    simp only
    revert k
    rcases (s1.getClock a.id).setupAbsolute a with ⟨s2, r⟩
    rcases (t1.getClock a.id).setupAbsolute a with ⟨t2, r'⟩
    rintro ⟨e, k⟩
    simp only at e k
    subst e
    rcases r' with e | b
    · exact ⟨rfl, k⟩
    · have k := initCounts_both k a.id a.base
      simp only
      revert k
      rcases s2.initCounts a.id a.base with ⟨s3, r⟩
      rcases t2.initCounts a.id a.base with ⟨t3, r'⟩
      rintro ⟨e, k⟩
      simp only at e k
      subst e
      rcases r' with _ | e
      · have k1 : SameButRecords (s3.resetUseable a.id) (t3.resetUseable a.id) := by
          obtain ⟨l, l', rfl, h1, h2⟩ := k.put
          exact ⟨h1, h2, rfl⟩
        have k2 := resetTotal_both k1 a.id .environment_state_update
        simp only
        rcases k2.out with ⟨e, e1, e2⟩ | ⟨_, _, e1, e2, k⟩
        · rw [e1, e2]; exact ⟨rfl, k1⟩
        · rw [e1, e2]; exact ⟨rfl, k⟩
      · exact ⟨rfl, k⟩
  · exact ⟨rfl, k⟩

/-! ## Whole runs -/

theorem Spec.SameButRecords.symm (hs : SameButRecords s t) : SameButRecords t s := by
  refine ⟨fun i => (hs.lists i).symm, fun i => (hs.times i).symm, ?_⟩
  have := hs.rest
  rw [this]

theorem Spec.SameButRecords.trans {u : Sys α κ W} (h1 : SameButRecords s t) (h2 : SameButRecords t u) :
    SameButRecords s u := by
  refine ⟨fun i => (h2.lists i).trans (h1.lists i), fun i => (h2.times i).trans (h1.times i), ?_⟩
  obtain ⟨l, l', rfl, _, _⟩ := h1.put
  exact h2.rest

theorem Spec.SameButRecords.world (hs : SameButRecords s t) (x : World α κ W) :
    SameButRecords { s with world := x } { t with world := x } := by
  obtain ⟨l, l', rfl, h1, h2⟩ := hs.put
  exact ⟨h1, h2, rfl⟩

theorem forgetful_leaves (o : OId) (l : List (α × Nat)) :
    ForgetfulAll (l.map fun p => (.leaf (o + 1 + p.2) (.everyNCalls p.1 1) : Cond α κ W)) := by
  induction l with
  | nil => trivial
  | cons x l ih => exact ⟨trivial, ih⟩

theorem forgetful_default (o : OId) (deps : List α) : Forgetful (Sys.defaultCond o deps : Cond α κ W) := by
  match deps with
  | [] => trivial
  | [_] => trivial
  | x :: y :: l => exact forgetful_leaves o _

theorem start_forgetful {s1 : Sys α κ W} (h1 : s0.start a = (s1, .ok abs)) (ha : AllForgetful a s0) :
    AllForgetful a s1 := by
  obtain ⟨_, x2, x3, x4⟩ := (Sys.start_ok h1).conds_spec
  refine ⟨fun n c hc => ?_, ha.2⟩
  cases h0 : Dict.get? s0.conds n with
  | some d =>
    rw [x2 n d h0] at hc
    cases hc
    exact ha.1 n c h0
  | none =>
    by_cases hn : n ∈ s0.nodes
    · obtain ⟨deps, d, _, y2, ⟨o, rfl, _⟩⟩ := x3 n hn h0
      rw [y2] at hc
      cases hc
      exact forgetful_default o deps
    · rw [x4 n hn, h0] at hc
      cases hc

/-- Two runs in surroundings that change the same things, apart from records. -/
theorem reach_both {E E' : Sys α κ W → Sys α κ W → Prop}
    (hE : ∀ s s' t, E s s' → SameButRecords s t → ∃ t', E' t t' ∧ SameButRecords s' t')
    (hc : Keeps E fun s => s.conds) (hs0 : SameButRecords s0 t0) (ha : AllForgetful a s0)
    (hr : Reach E a s0 abs h s pc) :
    AllForgetful a s ∧ ∃ h' t, Reach E' a t0 abs h' t pc ∧ All2 SameMoment h h' ∧ SameButRecords s t := by
  induction hr with
  | @start s1 abs hs =>
    have k := start_both (a := a) hs0
    rw [hs] at k
    refine ⟨start_forgetful hs ha, [], (t0.start a).1, .start (Prod.ext rfl k.1), .nil, k.2⟩
  | @step abs h s s' pc pc' ev hr hs ih =>
    obtain ⟨hf, h', t, hr', hh, hst⟩ := ih
    have k := step_both (abs := abs) hst hf pc
    rw [hs] at k
    refine ⟨⟨fun n c hn => hf.1 n c ?_, hf.2⟩, _, (t.step a abs pc).1,
      .step (ev := ev) hr' (Prod.ext rfl k.1), ?_, k.2⟩
    · rw [← (Sys.step_stepR hs).frame.conds]; exact hn
    · refine hh.append ?_
      cases ev with
      | none => exact .nil
      | some x => exact .cons ⟨rfl, hst, k.2⟩ .nil
  | @env abs h s s' pc hr hp he ih =>
    obtain ⟨hf, h', t, hr', hh, hst⟩ := ih
    obtain ⟨t', h1, h2⟩ := hE _ _ _ he hst
    exact ⟨⟨fun n c hn => hf.1 n c (by
      have e : s'.conds = s.conds := hc _ _ he
      rw [← e]; exact hn), hf.2⟩, h', t', .env hr' hp h1, hh, h2⟩

theorem sameMoment_yields {h h' : History α κ W} (hh : All2 SameMoment h h') : yields h' = yields h := by
  induction hh with
  | nil => rfl
  | cons hx _ ih =>
    unfold yields at ih ⊢
    rw [List.filterMap_cons, List.filterMap_cons, hx.ev, ih]

end GS
