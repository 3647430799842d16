import Verif.RunInv
import Verif.RunDefault
import Verif.Spec.Life
/-!
# Runs depend only on what is stored under their execution id
-/

set_option linter.unusedSectionVars false

namespace GS
open Spec
variable {α κ W β : Type _} [DecidableEq α] [DecidableEq κ]
variable {E : Sys α κ W → Sys α κ W → Prop} {a : RunArgs α κ W} {s0 s : Sys α κ W}
variable {abs : Bool} {h : History α κ W} {pc : PC α}

theorem Spec.SameFor.clock {i : Option κ} {v v' : View α κ W} (h : SameFor i v v') :
    v'.clock i = v.clock i := by unfold View.clock; rw [h.clocks]

theorem Spec.SameFor.totalEq {i : Option κ} {v v' : View α κ W} (h : SameFor i v v') (ts n) :
    v'.total i ts n = v.total i ts n := by unfold View.total; rw [h.total, h.nodes]

theorem Spec.SameFor.useableEq {i : Option κ} {v v' : View α κ W} (h : SameFor i v v') (x b) :
    v'.useable i x b = v.useable i x b := by unfold View.useable; rw [h.useable, h.nodes]

theorem evalLeaf_same {i : Option κ} {v v' : View α κ W} (h : SameFor i v v') (o : Option α)
    (k : Leaf α κ W) (hk : LocalLeaf i k) : evalLeaf v' i o k = evalLeaf v i o k := by
  have hc := h.clock
  have hsum : ∀ ts ds, sumCalls v' i ts ds = sumCalls v i ts ds := by
    intro ts ds
    induction ds with
    | nil => rfl
    | cons d ds ih => unfold sumCalls; rw [h.totalEq, ih]
  have hall : ∀ ts ds, allHaveRunFunc v' i ts ds = allHaveRunFunc v i ts ds := by
    intro ts ds
    induction ds with
    | nil => rfl
    | cons d ds ih => unfold allHaveRunFunc; rw [h.totalEq, ih]
  have hfin : ∀ d, isFinished v' i d = isFinished v i d := by
    intro d; unfold isFinished; rw [h.world]
  have hany : ∀ ds, finishedAny v' i ds = finishedAny v i ds := by
    intro ds
    induction ds with
    | nil => rfl
    | cons d ds ih => unfold finishedAny; rw [hfin, ih]
  have hfall : ∀ ds, finishedAll v' i ds = finishedAll v i ds := by
    intro ds
    induction ds with
    | nil => rfl
    | cons d ds ih => unfold finishedAll; rw [hfin, ih]
  have hget : Dict.get v'.execList i = Dict.get v.execList i := by unfold Dict.get; rw [h.list]
  have hex : v'.inExactTimeMode = v.inExactTimeMode := by
    unfold View.inExactTimeMode; rw [h.mode, h.queue]
  cases k with
  | func f => exact hk v v' o h
  | timeInterval r st fi si ei =>
    show timeIntervalFunc v' i o r st fi si ei = timeIntervalFunc v i o r st fi si ei
    unfold timeIntervalFunc
    rw [hc, hex, h.queue]
  | _ => simp only [evalLeaf, relTime, callCount, justRanFunc, hc, h.totalEq, h.useableEq, hsum, hall,
      hfin, hany, hfall, hget, h.nodes, h.world]

theorem Spec.SameStore.refl (i : Option κ) (st : Store α κ) : SameStore i st st :=
  ⟨rfl, rfl, fun _ => rfl⟩

theorem Spec.SameStore.bump {i : Option κ} {st st' : Store α κ} (h : SameStore i st st') (o : OId) :
    SameStore i (st.bumpSat o i) (st'.bumpSat o i) :=
  ⟨h.owner, h.fresh, fun x => by simp only [Store.bumpSat, h.sat]⟩

/-- Results of two evaluations that agree. -/
def SameResult (i : Option κ) (r r' : EvalResult α κ) : Prop :=
  r'.1 = r.1 ∧ SameStore i r.2 r'.2

mutual
theorem eval_same {i : Option κ} {v v' : View α κ W} (h : SameFor i v v') :
    ∀ (c : Cond α κ W) (st st' : Store α κ), LocalCond i c → SameStore i st st' →
      SameResult i (eval v i c st) (eval v' i c st')
  | .leaf o k, st, st', hl, hs => by
    unfold eval
    exact ⟨by rw [hs.owner]; exact evalLeaf_same h _ k hl, hs⟩
  | .whileNot o f, st, st', hl, hs => by
    unfold eval
    exact ⟨by rw [hs.owner]; exact congrArg notResult (hl v v' _ h), hs⟩
  | .all o args, st, st', hl, hs => evalAll_same h args st st' hl hs
  | .any o args, st, st', hl, hs => evalAny_same h args st st' hl hs
  | .not o c, st, st', hl, hs => by
    obtain ⟨h1, h2⟩ := eval_same h c st st' hl hs
    unfold eval
    exact ⟨by rw [h1], h2⟩
  | .nwhen o c n, st, st', hl, hs => by
    obtain ⟨h1, h2⟩ := eval_same h c st st' hl hs
    unfold eval
    rw [hs.sat]
    split
    · rcases hr : eval v i c st with ⟨r, st1⟩
      rcases hr' : eval v' i c st' with ⟨r', st1'⟩
      rw [hr, hr'] at h1 h2
      simp only at h1 h2
      subst h1
      rcases r' with e | b
      · exact ⟨rfl, h2⟩
      · cases b
        · exact ⟨rfl, h2⟩
        · exact ⟨rfl, h2.bump o⟩
    · exact ⟨rfl, hs⟩
theorem evalAll_same {i : Option κ} {v v' : View α κ W} (h : SameFor i v v') :
    ∀ (cs : List (Cond α κ W)) (st st' : Store α κ), LocalConds i cs → SameStore i st st' →
      SameResult i (evalAll v i cs st) (evalAll v' i cs st')
  | [], st, st', _, hs => ⟨rfl, hs⟩
  | c :: cs, st, st', hl, hs => by
    obtain ⟨h1, h2⟩ := eval_same h c st st' hl.1 hs
    unfold evalAll
    rcases hr : eval v i c st with ⟨r, st1⟩
    rcases hr' : eval v' i c st' with ⟨r', st1'⟩
    rw [hr, hr'] at h1 h2
    simp only at h1 h2
    subst h1
    rcases r' with e | b
    · exact ⟨rfl, h2⟩
    · cases b
      · exact ⟨rfl, h2⟩
      · exact evalAll_same h cs st1 st1' hl.2 h2
theorem evalAny_same {i : Option κ} {v v' : View α κ W} (h : SameFor i v v') :
    ∀ (cs : List (Cond α κ W)) (st st' : Store α κ), LocalConds i cs → SameStore i st st' →
      SameResult i (evalAny v i cs st) (evalAny v' i cs st')
  | [], st, st', _, hs => ⟨rfl, hs⟩
  | c :: cs, st, st', hl, hs => by
    obtain ⟨h1, h2⟩ := eval_same h c st st' hl.1 hs
    unfold evalAny
    rcases hr : eval v i c st with ⟨r, st1⟩
    rcases hr' : eval v' i c st' with ⟨r', st1'⟩
    rw [hr, hr'] at h1 h2
    simp only at h1 h2
    subst h1
    rcases r' with e | b
    · exact ⟨rfl, h2⟩
    · cases b
      · exact evalAny_same h cs st1 st1' hl.2 h2
      · exact ⟨rfl, h2⟩
end

/-! ## Steps -/

theorem Spec.SameFor.refl (i : Option κ) (v : View α κ W) : SameFor i v v :=
  ⟨rfl, rfl, rfl, rfl, rfl, rfl, rfl, rfl, rfl, rfl⟩

theorem Spec.SameFor.trans {i : Option κ} {v1 v2 v3 : View α κ W} (h : SameFor i v1 v2)
    (k : SameFor i v2 v3) : SameFor i v1 v3 :=
  ⟨k.nodes.trans h.nodes, k.mode.trans h.mode, k.graph.trans h.graph, k.queue.trans h.queue,
    k.world.trans h.world, k.total.trans h.total, k.useable.trans h.useable, k.list.trans h.list,
    k.stamps.trans h.stamps, k.clocks.trans h.clocks⟩

theorem Spec.SameStore.trans {i : Option κ} {s1 s2 s3 : Store α κ} (h : SameStore i s1 s2)
    (k : SameStore i s2 s3) : SameStore i s1 s3 :=
  ⟨k.owner.trans h.owner, k.fresh.trans h.fresh, fun o => (k.sat o).trans (h.sat o)⟩

theorem Spec.Agree.refl (i : Option κ) (s : Sys α κ W) : Agree i s s :=
  ⟨.refl _ _, .refl _ _, rfl, rfl⟩

theorem Spec.Agree.trans {i : Option κ} {s1 s2 s3 : Sys α κ W} (h : Agree i s1 s2)
    (k : Agree i s2 s3) : Agree i s1 s3 :=
  ⟨h.view.trans k.view, h.store.trans k.store, k.conds.trans h.conds, k.unit.trans h.unit⟩

theorem Spec.SameFor.symm {i : Option κ} {v1 v2 : View α κ W} (h : SameFor i v1 v2) :
    SameFor i v2 v1 :=
  ⟨h.nodes.symm, h.mode.symm, h.graph.symm, h.queue.symm, h.world.symm, h.total.symm,
    h.useable.symm, h.list.symm, h.stamps.symm, h.clocks.symm⟩

theorem Spec.Agree.symm {i : Option κ} {s1 s2 : Sys α κ W} (h : Agree i s1 s2) : Agree i s2 s1 :=
  ⟨h.view.symm, ⟨h.store.owner.symm, h.store.fresh.symm, fun o => (h.store.sat o).symm⟩,
    h.conds.symm, h.unit.symm⟩

variable {t : Sys α κ W} {i : Option κ}

theorem Dict.get?_set_both {k v : Type _} [DecidableEq k] (d d' : Dict k v) (x : k) (y : v) :
    Dict.get? (Dict.set d' x y) x = Dict.get? (Dict.set d x y) x := by
  rw [Dict.get?_set_self, Dict.get?_set_self]

theorem Spec.Agree.putStore (h : Agree i s t) {st st'} (hst : SameStore i st st') :
    Agree i (s.putStore st) (t.putStore st') := ⟨h.view, hst, h.conds, h.unit⟩

theorem Spec.Agree.putTotal (h : Agree i s t) (f) : Agree i (s.putTotal i f) (t.putTotal i f) :=
  ⟨{ h.view with total := Dict.get?_set_both _ _ i _ }, h.store, h.conds, h.unit⟩

theorem Spec.Agree.putUseable (h : Agree i s t) (f) :
    Agree i (s.putUseable i f) (t.putUseable i f) :=
  ⟨{ h.view with useable := Dict.get?_set_both _ _ i _ }, h.store, h.conds, h.unit⟩

theorem Spec.Agree.putList (h : Agree i s t) (f) : Agree i (s.putList i f) (t.putList i f) :=
  ⟨{ h.view with list := Dict.get?_set_both _ _ i _ }, h.store, h.conds, h.unit⟩

theorem Spec.Agree.putStamps (h : Agree i s t) (f) : Agree i (s.putStamps i f) (t.putStamps i f) :=
  ⟨{ h.view with stamps := Dict.get?_set_both _ _ i _ }, h.store, h.conds, h.unit⟩

theorem Spec.Agree.setClock (h : Agree i s t) (c) : Agree i (s.setClock i c) (t.setClock i c) :=
  ⟨{ h.view with clocks := Dict.get?_set_both _ _ i _ }, h.store, h.conds, h.unit⟩

/-- Both fail alike, or both succeed with agreeing states. -/
inductive SameEx (i : Option κ) : Except Err (Sys α κ W) → Except Err (Sys α κ W) → Prop
  | error (e : Err) : SameEx i (.error e) (.error e)
  | ok {s t : Sys α κ W} : Agree i s t → SameEx i (.ok s) (.ok t)

/-- Agreeing states and equal results. -/
structure SamePair {γ : Type _} (i : Option κ) (p q : Sys α κ W × γ) : Prop where
  sys : Agree i p.1 q.1
  res : q.2 = p.2

namespace Sys

theorem evalCond_same (h : Agree i s t) {c : Cond α κ W} (hc : LocalCond i c) :
    SamePair i (s.evalCond i c) (t.evalCond i c) := by
  obtain ⟨h1, h2⟩ := eval_same h.view c _ _ hc h.store
  exact ⟨h.putStore h2, h1⟩

theorem continues_same (h : Agree a.id s t) (he : LocalCond a.id a.esu) (hq : LocalCond a.id a.seq) :
    SamePair a.id (s.continues a) (t.continues a) := by
  have h1 := evalCond_same h he
  unfold continues
  rcases e1 : s.evalCond a.id a.esu with ⟨s1, r1⟩
  rcases e2 : t.evalCond a.id a.esu with ⟨t1, r2⟩
  rw [e1, e2] at h1
  obtain ⟨g1, g2⟩ := h1
  simp only at g1 g2
  subst g2
  rcases r2 with e | b
  · exact ⟨g1, rfl⟩
  · cases b
    · have h2 := evalCond_same g1 hq
      dsimp only
      rcases e3 : s1.evalCond a.id a.seq with ⟨s2, r3⟩
      rcases e4 : t1.evalCond a.id a.seq with ⟨t2, r4⟩
      rw [e3, e4] at h2
      obtain ⟨g3, g4⟩ := h2
      simp only at g3 g4
      subst g4
      rcases r4 with e | b
      · exact ⟨g3, rfl⟩
      · exact ⟨g3, rfl⟩
    · exact ⟨g1, rfl⟩

theorem resetTotal_same (h : Agree i s t) (ts : TimeScale) :
    SameEx i (s.resetTotal ts i) (t.resetTotal ts i) := by
  unfold resetTotal
  rw [h.view.total]
  cases Dict.get? s.countsTotal i with
  | none => exact .error _
  | some f => exact .ok (h.putTotal _)

theorem incrClock_same (h : Agree i s t) (ts : TimeScale) :
    SameEx i (s.incrClock i ts) (t.incrClock i ts) := by
  unfold incrClock
  rw [h.view.clock]
  cases (s.clock i).incr ts with
  | error e => exact .error _
  | ok c => exact .ok (h.setClock c)

theorem fire_same (h : Agree i s t) (n : α) : SameEx i (s.fire i n) (t.fire i n) := by
  unfold fire
  rw [h.view.total, h.view.useable]
  cases Dict.get? s.countsTotal i with
  | none => exact .error _
  | some f =>
    dsimp only
    have hn : (n ∈ t.nodes) = (n ∈ s.nodes) := by rw [h.view.nodes]
    simp only [hn]
    split
    · cases Dict.get? s.countsUseable i with
      | none => exact .error _
      | some u => exact .ok ((h.putTotal _).putUseable _)
    · exact .error _

theorem considerNode_same (h : Agree i s t) (n : α)
    (hc : ∀ c, Dict.get? s.conds n = some c → LocalCond i c) :
    SamePair i (s.considerNode i n) (t.considerNode i n) := by
  unfold considerNode
  rw [h.conds]
  cases hn : Dict.get? s.conds n with
  | none => exact ⟨h, rfl⟩
  | some c =>
    have h1 := evalCond_same h (hc c hn)
    dsimp only
    rcases e1 : s.evalCond i c with ⟨s1, r1⟩
    rcases e2 : t.evalCond i c with ⟨t1, r2⟩
    rw [e1, e2] at h1
    obtain ⟨g1, g2⟩ := h1
    simp only at g1 g2
    subst g2
    rcases r2 with e | b
    · exact ⟨g1, rfl⟩
    · cases b
      · exact ⟨g1, rfl⟩
      · have h2 := fire_same g1 n
        dsimp only
        generalize s1.fire i n = x at h2
        generalize t1.fire i n = y at h2
        cases h2 with
        | error e => exact ⟨g1, rfl⟩
        | ok h3 => exact ⟨h3, rfl⟩

theorem record_same (h : Agree i s t) (abs : Bool) (set : List α) :
    SamePair i (s.record i abs set) (t.record i abs set) := by
  unfold record
  rw [h.view.list]
  cases Dict.get? s.execList i with
  | none => exact ⟨h, rfl⟩
  | some l =>
    dsimp only
    cases abs with
    | false => exact ⟨h.putList _, rfl⟩
    | true =>
      simp only [if_true]
      rw [h.view.stamps]
      cases Dict.get? s.timestamps i with
      | none => exact ⟨h.putList _, rfl⟩
      | some ts =>
        refine ⟨?_, rfl⟩
        have e : t.clock i = s.clock i := h.view.clock
        show Agree i ((s.putList i (l ++ [set])).putStamps i (ts ++ [(s.clock i).time]))
          ((t.putList i (l ++ [set])).putStamps i (ts ++ [(t.clock i).time]))
        rw [e]
        exact (h.putList (l ++ [set])).putStamps (ts ++ [(s.clock i).time])

theorem endPass_same (h : Agree a.id s t) (abs changed : Bool) :
    SamePair a.id (s.endPass a abs changed) (t.endPass a abs changed) := by
  unfold endPass
  split
  · have h1 := record_same h false []
    rcases e1 : s.record a.id false [] with ⟨s1, r1⟩
    rcases e2 : t.record a.id false [] with ⟨t1, r2⟩
    rw [e1, e2] at h1
    obtain ⟨g1, g2⟩ := h1
    simp only at g1 g2
    subst g2
    cases r2 with
    | none => exact ⟨g1, rfl⟩
    | some e => exact ⟨g1, rfl⟩
  · have h2 := incrClock_same h .pass
    generalize s.incrClock a.id .pass = x at h2
    generalize t.incrClock a.id .pass = y at h2
    cases h2 with
    | error e => exact ⟨h, rfl⟩
    | ok h3 => exact ⟨h3, rfl⟩

theorem endChoice_same (h : Agree a.id s t) (abs : Bool) (c : Choice α) :
    SamePair a.id (s.endChoice a abs c) (t.endChoice a abs c) := by
  unfold endChoice
  dsimp only
  split
  · have h1 := record_same h abs c.exec
    rcases e1 : s.record a.id abs c.exec with ⟨s1, r1⟩
    rcases e2 : t.record a.id abs c.exec with ⟨t1, r2⟩
    rw [e1, e2] at h1
    obtain ⟨g1, g2⟩ := h1
    simp only at g1 g2
    subst g2
    cases r2 with
    | none => exact ⟨g1, rfl⟩
    | some e => exact ⟨g1, rfl⟩
  · exact ⟨h, rfl⟩

theorem choose_same (h : Agree a.id s t) (abs : Bool) (c : Choice α)
    (hc : ∀ n c, Dict.get? s.conds n = some c → LocalCond a.id c) :
    SamePair a.id (s.choose a abs c) (t.choose a abs c) := by
  unfold choose
  cases c.todo with
  | nil =>
    dsimp only
    split
    · exact ⟨h, rfl⟩
    · exact endChoice_same h abs c
  | cons n ns =>
    dsimp only
    split
    · exact ⟨h, rfl⟩
    · have h1 := considerNode_same h n (hc n)
      rcases e1 : s.considerNode a.id n with ⟨s1, r1⟩
      rcases e2 : t.considerNode a.id n with ⟨t1, r2⟩
      rw [e1, e2] at h1
      obtain ⟨g1, g2⟩ := h1
      simp only at g1 g2
      subst g2
      rcases r2 with e | b
      · exact ⟨g1, rfl⟩
      · cases b <;> exact ⟨g1, rfl⟩

theorem finish_same (h : Agree a.id s t) (hq : LocalCond a.id a.seq) :
    SamePair a.id (s.finish a) (t.finish a) := by
  unfold finish
  have h1 : SameEx a.id (if a.skip then .ok s else s.incrClock a.id .environment_state_update)
      (if a.skip then .ok t else t.incrClock a.id .environment_state_update) := by
    split
    · exact .ok h
    · exact incrClock_same h _
  generalize (if a.skip then Except.ok s else s.incrClock a.id .environment_state_update) = x at h1
  generalize (if a.skip then Except.ok t else t.incrClock a.id .environment_state_update) = y at h1
  cases h1 with
  | error e => exact ⟨h, rfl⟩
  | @ok s' t' h2 =>
    dsimp only
    have h3 := evalCond_same h2 hq
    rcases e1 : s'.evalCond a.id a.seq with ⟨s1, r1⟩
    rcases e2 : t'.evalCond a.id a.seq with ⟨t1, r2⟩
    rw [e1, e2] at h3
    obtain ⟨g1, g2⟩ := h3
    simp only at g1 g2
    subst g2
    rcases r2 with e | b <;> exact ⟨g1, rfl⟩

/-- A step is the same in agreeing states. -/
theorem step_same (h : Agree a.id s t) (abs : Bool) (pc : PC α)
    (he : LocalCond a.id a.esu) (hq : LocalCond a.id a.seq)
    (hc : ∀ n c, Dict.get? s.conds n = some c → LocalCond a.id c) :
    SamePair a.id (s.step a abs pc) (t.step a abs pc) := by
  cases pc with
  | outer =>
    have h1 := continues_same h he hq
    simp only [step]
    rcases e1 : s.continues a with ⟨s1, r1⟩
    rcases e2 : t.continues a with ⟨t1, r2⟩
    rw [e1, e2] at h1
    obtain ⟨g1, g2⟩ := h1
    simp only at g1 g2
    subst g2
    rcases r2 with e | b
    · exact ⟨g1, rfl⟩
    · cases b
      · exact finish_same g1 hq
      · have h2 := resetTotal_same g1 .pass
        dsimp only
        generalize s1.resetTotal .pass a.id = x at h2
        generalize t1.resetTotal .pass a.id = y at h2
        cases h2 with
        | error e => exact ⟨g1, rfl⟩
        | ok h3 => exact ⟨h3, rfl⟩
  | inner idx changed =>
    simp only [step]
    rw [h.view.queue]
    cases s.queue[idx]? with
    | none => exact endPass_same h abs changed
    | some layer =>
      have h1 := continues_same h he hq
      dsimp only
      rcases e1 : s.continues a with ⟨s1, r1⟩
      rcases e2 : t.continues a with ⟨t1, r2⟩
      rw [e1, e2] at h1
      obtain ⟨g1, g2⟩ := h1
      simp only at g1 g2
      subst g2
      rcases r2 with e | b
      · exact ⟨g1, rfl⟩
      · cases b
        · exact endPass_same g1 abs changed
        · exact ⟨g1, rfl⟩
  | choosing c => exact choose_same h abs c hc
  | yielded idx changed =>
    simp only [step]
    have h2 := incrClock_same h .consideration_set_execution
    generalize s.incrClock a.id .consideration_set_execution = x at h2
    generalize t.incrClock a.id .consideration_set_execution = y at h2
    cases h2 with
    | error e => exact ⟨h, rfl⟩
    | ok h3 => exact ⟨h3, rfl⟩
  | yieldedEmpty =>
    simp only [step]
    have h2 := incrClock_same h .consideration_set_execution
    generalize s.incrClock a.id .consideration_set_execution = x at h2
    generalize t.incrClock a.id .consideration_set_execution = y at h2
    cases h2 with
    | error e => exact ⟨h, rfl⟩
    | @ok s' t' h3 =>
      dsimp only
      have h4 := incrClock_same h3 .pass
      generalize s'.incrClock a.id .pass = x at h4
      generalize t'.incrClock a.id .pass = y at h4
      cases h4 with
      | error e => exact ⟨h3, rfl⟩
      | ok h5 => exact ⟨h5, rfl⟩
  | returned => exact ⟨h, rfl⟩
  | raised e => exact ⟨h, rfl⟩

end Sys

end GS
