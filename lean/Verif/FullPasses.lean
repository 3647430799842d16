import Verif.AbsRepeatRun
/-!
# When no pass is cut short
-/

set_option linter.unusedSectionVars false

namespace GS
open Spec Props
variable {α κ W : Type _} [DecidableEq α] [DecidableEq κ]
variable {a : RunArgs α κ W} {abs : Bool} {s s' s0 s1 : Sys α κ W} {pc pc' : PC α}
  {ev : Option (Event α)} {E : Sys α κ W → Sys α κ W → Prop} {h : History α κ W}

/-- Two views that differ at most in clocks, and not in absolute time under `id`. -/
structure SameTime (id : Option κ) (v v' : View α κ W) : Prop where
  nodes : v'.nodes = v.nodes
  mode : v'.mode = v.mode
  graph : v'.graph = v.graph
  queue : v'.queue = v.queue
  total : v'.countsTotal = v.countsTotal
  useable : v'.countsUseable = v.countsUseable
  list : v'.execList = v.execList
  world : v'.world = v.world
  absolute : (v'.clock id).time.absolute = (v.clock id).time.absolute
  interval : (v'.clock id).time.absolute_interval = (v.clock id).time.absolute_interval

theorem evalLeaf_sameTime {id : Option κ} {v v' : View α κ W} (hv : SameTime id v v') {k : Leaf α κ W}
    (hk : NoTicksLeaf k) (o : Option α) : evalLeaf v' id o k = evalLeaf v id o k := by
  have htot : ∀ ts d, v'.total id ts d = v.total id ts d := by
    intro ts d; unfold View.total; rw [hv.total, hv.nodes]
  have hcall : ∀ ts d f, callCount v' id ts d f = callCount v id ts d f := by
    intro ts d f; unfold callCount; rw [htot]
  cases k with
  | always => rfl
  | never => rfl
  | timeInterval r st fi si ei =>
    have he : v'.inExactTimeMode = v.inExactTimeMode := by
      unfold View.inExactTimeMode; simp only [hv.mode, hv.queue]
    simp only [evalLeaf, timeIntervalFunc, he, hv.absolute, hv.interval, hv.queue]
  | timeTermination t i => simp only [evalLeaf]; rw [hv.absolute]
  | beforeNCalls d n ts => simp only [evalLeaf, hcall]
  | atNCalls d n ts => simp only [evalLeaf, hcall]
  | afterCall d n ts => simp only [evalLeaf, hcall]
  | afterNCalls d n ts => simp only [evalLeaf, hcall]
  | afterNCallsCombined ds n ts =>
    have : ∀ ds, sumCalls v' id ts ds = sumCalls v id ts ds := by
      intro ds
      induction ds with
      | nil => rfl
      | cons d ds ih => simp only [sumCalls, htot, ih]
    simp only [evalLeaf, this]
  | everyNCalls d n =>
    have : ∀ o, v'.useable id d o = v.useable id d o := by
      intro o; unfold View.useable; rw [hv.useable, hv.nodes]
    simp only [evalLeaf, this]
  | justRan d =>
    simp only [evalLeaf, justRanFunc]; rw [hv.list]
  | allHaveRun ds ts =>
    have : ∀ ds, allHaveRunFunc v' id ts ds = allHaveRunFunc v id ts ds := by
      intro ds
      induction ds with
      | nil => rfl
      | cons d ds ih => simp only [allHaveRunFunc, htot, ih]
    simp only [evalLeaf, this, hv.nodes]
  | whenFinished d => simp only [evalLeaf, isFinished]; rw [hv.world]
  | whenFinishedAny ds =>
    have : ∀ ds, finishedAny v' id ds = finishedAny v id ds := by
      intro ds
      induction ds with
      | nil => rfl
      | cons d ds ih => simp only [finishedAny, isFinished, hv.world, ih]
    simp only [evalLeaf, this, hv.nodes]
  | whenFinishedAll ds =>
    have : ∀ ds, finishedAll v' id ds = finishedAll v id ds := by
      intro ds
      induction ds with
      | nil => rfl
      | cons d ds ih => simp only [finishedAll, isFinished, hv.world, ih]
    simp only [evalLeaf, this, hv.nodes]
  | threshold d p thr cmp ix at_ rt g => simp only [evalLeaf]; rw [hv.world]
  | _ => exact hk.elim

mutual
theorem eval_sameTime {id : Option κ} {v v' : View α κ W} (hv : SameTime id v v') :
    ∀ (c : Cond α κ W) (st : Store α κ), NoTicks c → eval v' id c st = eval v id c st
  | .leaf o k, st, hk => by simp only [eval]; rw [evalLeaf_sameTime hv hk]
  | .all o args, st, hk => by simp only [eval]; exact evalAll_sameTime hv args st hk
  | .any o args, st, hk => by simp only [eval]; exact evalAny_sameTime hv args st hk
  | .not o c, st, hk => by simp only [eval]; rw [eval_sameTime hv c st hk]
  | .nwhen .., _, hk => hk.elim
  | .whileNot .., _, hk => hk.elim
theorem evalAll_sameTime {id : Option κ} {v v' : View α κ W} (hv : SameTime id v v') :
    ∀ (cs : List (Cond α κ W)) (st : Store α κ), NoTicksAll cs → evalAll v' id cs st = evalAll v id cs st
  | [], _, _ => rfl
  | c :: cs, st, hk => by
    simp only [evalAll]
    rw [eval_sameTime hv c st hk.1]
    have : ∀ st, evalAll v' id cs st = evalAll v id cs st := fun st => evalAll_sameTime hv cs st hk.2
    simp only [this]
theorem evalAny_sameTime {id : Option κ} {v v' : View α κ W} (hv : SameTime id v v') :
    ∀ (cs : List (Cond α κ W)) (st : Store α κ), NoTicksAll cs → evalAny v' id cs st = evalAny v id cs st
  | [], _, _ => rfl
  | c :: cs, st, hk => by
    simp only [evalAny]
    rw [eval_sameTime hv c st hk.1]
    have : ∀ st, evalAny v' id cs st = evalAny v id cs st := fun st => evalAny_sameTime hv cs st hk.2
    simp only [this]
end

mutual
/-- Such conditions have no state of their own. -/
theorem eval_noTicks_store (v : View α κ W) (id : Option κ) :
    ∀ (c : Cond α κ W) (st : Store α κ), NoTicks c → (eval v id c st).2 = st
  | .leaf o k, st, _ => rfl
  | .all o args, st, hk => by simp only [eval]; exact evalAll_noTicks_store v id args st hk
  | .any o args, st, hk => by simp only [eval]; exact evalAny_noTicks_store v id args st hk
  | .not o c, st, hk => by simp only [eval]; exact eval_noTicks_store v id c st hk
  | .nwhen .., _, hk => hk.elim
  | .whileNot .., _, hk => hk.elim
theorem evalAll_noTicks_store (v : View α κ W) (id : Option κ) :
    ∀ (cs : List (Cond α κ W)) (st : Store α κ), NoTicksAll cs → (evalAll v id cs st).2 = st
  | [], _, _ => rfl
  | c :: cs, st, hk => by
    have h1 := eval_noTicks_store v id c st hk.1
    simp only [evalAll]
    rcases hx : eval v id c st with ⟨e | b, st'⟩
    · rw [hx] at h1; exact h1
    · rw [hx] at h1
      cases b
      · exact h1
      · dsimp only at h1 ⊢; rw [evalAll_noTicks_store v id cs st' hk.2]; exact h1
theorem evalAny_noTicks_store (v : View α κ W) (id : Option κ) :
    ∀ (cs : List (Cond α κ W)) (st : Store α κ), NoTicksAll cs → (evalAny v id cs st).2 = st
  | [], _, _ => rfl
  | c :: cs, st, hk => by
    have h1 := eval_noTicks_store v id c st hk.1
    simp only [evalAny]
    rcases hx : eval v id c st with ⟨e | b, st'⟩
    · rw [hx] at h1; exact h1
    · rw [hx] at h1
      cases b
      · dsimp only at h1 ⊢; rw [evalAny_noTicks_store v id cs st' hk.2]; exact h1
      · exact h1
end

theorem Going.notDoneLater {st st' : Store α κ} {c : Clock} (h1 : NoTicks a.esu) (h2 : NoTicks a.seq)
    (hd : Done s a st) (hc : (s.clock a.id).incr .pass = .ok c) :
    ¬ Going ((s.putStore st).setClock a.id c) a st' := by
  have hcl : ((s.putStore st).setClock a.id c).clock a.id = c := Sys.clock_setClock _ _ _
  have hi := incr_abs hc
  have hab : c.time.absolute = (s.clock a.id).time.absolute := by
    rw [hi.2.2, if_neg (fun h => by cases h.2), Rat.add_zero]
  have hv : SameTime a.id s.toView ((s.putStore st).setClock a.id c).toView :=
    ⟨rfl, rfl, rfl, rfl, rfl, rfl, rfl, rfl, by rw [hcl]; exact hab, by rw [hcl]; exact hi.2.1⟩
  have hs : ((s.putStore st).setClock a.id c).store = st := rfl
  rintro ⟨st1, g1, g2⟩
  rw [hs, eval_sameTime hv _ _ h1] at g1
  rw [eval_sameTime hv _ _ h2] at g2
  rcases hd with d | ⟨st2, d1, d2⟩
  · have e1 := eval_noTicks_store s.toView a.id a.esu s.store h1
    rw [d] at e1
    dsimp only at e1
    subst e1
    rw [d] at g1; cases g1
  · have e1 := eval_noTicks_store s.toView a.id a.esu s.store h1
    rw [d1] at e1
    dsimp only at e1
    subst e1
    have e2 := eval_noTicks_store s.toView a.id a.seq s.store h2
    rw [d2] at e2
    dsimp only at e2
    subst e2
    rw [d1] at g1
    cases g1
    rw [d2] at g2; cases g2

/-- If the termination conditions do not look at passes, no pass is cut short unless the
run ends with it. -/
theorem Reach.fullPasses (hr : Reach E a s0 true h s pc) (hQ : Keeps E fun s => s.queue)
    (h1 : NoTicks a.esu) (h2 : NoTicks a.seq) :
    FullPasses h s0.queue.length := by
  have := hr.ind (P := fun h s pc => FullPasses h s0.queue.length ∧
    (pc = .outer → (∀ p ∈ passYields h, p.length = s0.queue.length) ∨ ∀ st, ¬ Going s a st)) ?_ ?_ ?_
  · exact this.1
  · intro s _; exact ⟨(by intro p hp; cases hp), fun _ => Or.inl (by intro p hp; cases hp)⟩
  · intro h s s' pc pc' ev hr ih hst
    obtain ⟨ih1, ih2⟩ := ih
    have hq := hr.keepQueue hQ
    cases hst with
    | yield _ _ ha => cases ha
    | emptyYield _ ha => cases ha
    | silent _ _ ha => cases ha
    | pass hg =>
      refine ⟨?_, by simp⟩
      rw [ext_some]
      intro p hp
      rw [passYields_passStart, List.dropLast_concat] at hp
      rcases ih2 rfl with h | h
      · exact h p hp
      · exact absurd hg (h _)
    | @passEnd idx changed st c hl hch hc =>
      rw [ext_none]
      refine ⟨ih1, fun _ => ?_⟩
      rcases hl with ⟨hn, _⟩ | ⟨_, hd⟩
      · left
        obtain ⟨ps, p, e1, e2⟩ := hr.passPos
        obtain ⟨k, hk, _, hk2⟩ := hr.considered_range hQ
        cases hk
        have : s0.queue.length ≤ idx := by rw [← hq]; exact List.getElem?_eq_none_iff.mp hn
        intro q hq'
        rw [e1] at hq'
        rcases List.mem_append.mp hq' with h | h
        · apply ih1; rw [e1, List.dropLast_concat]; exact h
        · simp at h; subst h; omega
      · right
        intro st'; exact Going.notDoneLater h1 h2 hd hc
    | stopSkip =>
      refine ⟨?_, by simp⟩
      rw [ext_some]; intro p hp
      rw [passYields_other _ _ _ rfl (by simp)] at hp; exact ih1 p hp
    | stopIncr =>
      refine ⟨?_, by simp⟩
      rw [ext_some]; intro p hp
      rw [passYields_other _ _ _ rfl (by simp)] at hp; exact ih1 p hp
    | consider =>
      refine ⟨?_, by simp⟩
      rw [ext_some]; intro p hp
      rw [passYields_other _ _ _ rfl (by simp)] at hp; exact ih1 p hp
    | add =>
      refine ⟨?_, by simp⟩
      rw [ext_some]; intro p hp
      rw [passYields_other _ _ _ rfl (by simp)] at hp; exact ih1 p hp
    | @yieldAbs c =>
      refine ⟨?_, by simp⟩
      rw [ext_some]; intro p hp
      obtain ⟨ps, q, e1, _⟩ := hr.passPos
      rw [passYields_yield _ _ _ (y := c.exec) rfl, e1, addToLast_snoc, List.dropLast_concat] at hp
      apply ih1; rw [e1, List.dropLast_concat]; exact hp
    | again => rw [ext_none]; exact ⟨ih1, by simp⟩
    | skip => rw [ext_none]; exact ⟨ih1, by simp⟩
    | reject => rw [ext_none]; exact ⟨ih1, by simp⟩
    | resume => rw [ext_none]; exact ⟨ih1, by simp⟩
    | @resumeEmpty c1 c2 =>
      have : False := by
        have := hr.ind (P := fun _ _ pc => pc ≠ .yieldedEmpty) (by intro s _; simp) (by
          intro h s s' pc pc' ev _ ih hst
          cases hst with
          | emptyYield _ ha => cases ha
          | _ => simp) (by intro h s s' pc _ ih _ _; exact ih)
        exact this rfl
      exact this.elim
    | returned => rw [ext_none]; exact ⟨ih1, by simp⟩
    | raised => rw [ext_none]; exact ⟨ih1, by simp⟩
    | fails hp hfr hev =>
      refine ⟨?_, by simp⟩
      rcases hev with rfl | ⟨_, rfl, _⟩
      · rw [ext_none]; exact ih1
      · rw [ext_some]; intro p hp
        rw [passYields_other _ _ _ rfl (by simp)] at hp; exact ih1 p hp
  · intro h s s' pc _ ih hs _
    refine ⟨ih.1, fun e => ?_⟩
    subst e; cases hs

end GS
