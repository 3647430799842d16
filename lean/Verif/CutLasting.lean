import Verif.Cut
/-!
# Lemmas: termination conditions that stay satisfied until the end of a pass
-/

set_option linter.unusedSectionVars false

namespace GS
open Spec TimeScale
variable {α κ W : Type _} [DecidableEq α] [DecidableEq κ]
variable {a a' : RunArgs α κ W} {abs : Bool} {s s' s0 t t' : Sys α κ W} {P : Nat → Prop}
variable {w : List (List α) → World α κ W} {h h' : History α κ W} {pc pc' : PC α}
variable {v v' : View α κ W} {id : Option κ} {ev : Option (Event α)}

mutual
theorem settled_plain : ∀ c : Cond α κ W, Settled c → Plain c
  | .leaf _ k, hc => by cases k <;> first | trivial | exact hc.elim
  | .all _ args, hc => settledAll_plain args hc
  | .any _ args, hc => settledAll_plain args hc
  | .not _ c, hc => settled_plain c hc
  | .whileNot .., hc => hc.elim
  | .nwhen .., hc => hc.elim
theorem settledAll_plain : ∀ cs : List (Cond α κ W), SettledAll cs → PlainAll cs
  | [], _ => trivial
  | c :: cs, hc => ⟨settled_plain c hc.1, settledAll_plain cs hc.2⟩
end

mutual
theorem lasting_plain : ∀ c : Cond α κ W, Lasting c → Plain c
  | .leaf _ k, hc => by cases k <;> first | trivial | exact hc.elim (fun x => x.elim) fun x => x.elim
  | .all _ args, hc => lastingAll_plain args hc
  | .any _ args, hc => lastingAll_plain args hc
  | .not _ c, hc => settled_plain c hc
  | .whileNot .., hc => hc.elim
  | .nwhen .., hc => hc.elim
theorem lastingAll_plain : ∀ cs : List (Cond α κ W), LastingAll cs → PlainAll cs
  | [], _ => trivial
  | c :: cs, hc => ⟨lasting_plain c hc.1, lastingAll_plain cs hc.2⟩
end

mutual
theorem plain_stateless : ∀ c : Cond α κ W, Plain c → Stateless c
  | .leaf _ k, hc => trivial
  | .all _ args, hc => plainAll_stateless args hc
  | .any _ args, hc => plainAll_stateless args hc
  | .not _ c, hc => plain_stateless c hc
  | .whileNot .., hc => hc.elim
  | .nwhen .., hc => hc.elim
theorem plainAll_stateless : ∀ cs : List (Cond α κ W), PlainAll cs → StatelessAll cs
  | [], _ => trivial
  | c :: cs, hc => ⟨plain_stateless c hc.1, plainAll_stateless cs hc.2⟩
end

mutual
theorem lasting_absolute : ∀ c : Cond α κ W, Lasting c → c.isAbsolute = false
  | .leaf _ k, hc => by cases k <;> first | rfl | exact hc.elim (fun x => x.elim) fun x => x.elim
  | .all _ args, hc => lastingAll_absolute args hc
  | .any _ args, hc => lastingAll_absolute args hc
  | .not _ c, hc => rfl
  | .whileNot .., hc => hc.elim
  | .nwhen .., hc => hc.elim
theorem lastingAll_absolute : ∀ cs : List (Cond α κ W), LastingAll cs → anyAbsolute cs = false
  | [], _ => rfl
  | c :: cs, hc => by
    show (c.isAbsolute || anyAbsolute cs) = false
    rw [lasting_absolute c hc.1, lastingAll_absolute cs hc.2]; rfl
end

theorem plain_store {c : Cond α κ W} (hc : Plain c) (v : View α κ W) (st : Store α κ) :
    (eval v id c st).2 = st := (eval_stateless v id c st (plain_stateless c hc)).1

/-- Two views with the same nodes, last set, outside world and counts over coarse scales. -/
structure Calm (id : Option κ) (v v' : View α κ W) : Prop where
  nodes : v'.nodes = v.nodes
  list : v'.execList = v.execList
  world : v'.world = v.world
  total : ∀ ts d, Coarse ts → v'.total id ts d = v.total id ts d

theorem evalLeaf_calm (hv : Calm id v v') {k : Leaf α κ W} (hk : SettledLeaf k) (o o' : Option α) :
    evalLeaf v' id o' k = evalLeaf v id o k := by
  have hcall : ∀ ts d f, Coarse ts → callCount v' id ts d f = callCount v id ts d f := by
    intro ts d f ht; unfold callCount; rw [hv.total _ _ ht]
  cases k with
  | always => rfl
  | never => rfl
  | beforeNCalls d n ts => simp only [evalLeaf, hcall _ _ _ hk]
  | atNCalls d n ts => simp only [evalLeaf, hcall _ _ _ hk]
  | afterCall d n ts => simp only [evalLeaf, hcall _ _ _ hk]
  | afterNCalls d n ts => simp only [evalLeaf, hcall _ _ _ hk]
  | afterNCallsCombined ds n ts =>
    have : ∀ ds, sumCalls v' id ts ds = sumCalls v id ts ds := by
      intro ds
      induction ds with
      | nil => rfl
      | cons d ds ih => simp only [sumCalls, hv.total _ _ hk, ih]
    simp only [evalLeaf, this]
  | justRan d =>
    simp only [evalLeaf, justRanFunc]; rw [hv.list]
  | allHaveRun ds ts =>
    have : ∀ ds, allHaveRunFunc v' id ts ds = allHaveRunFunc v id ts ds := by
      intro ds
      induction ds with
      | nil => rfl
      | cons d ds ih => simp only [allHaveRunFunc, hv.total _ _ hk, ih]
    simp only [evalLeaf, this, hv.nodes]
  | whenFinished d => simp only [evalLeaf, isFinished]; rw [hv.world]
  | whenFinishedAny ds =>
    have : ∀ ds, finishedAny v' id ds = finishedAny v id ds := by
      intro ds
      induction ds with
      | nil => rfl
      | cons d ds ih => simp only [finishedAny, isFinished, hv.world, ih]
    simp only [evalLeaf, this, hv.nodes]
  | whenFinishedAll ds =>
    have : ∀ ds, finishedAll v' id ds = finishedAll v id ds := by
      intro ds
      induction ds with
      | nil => rfl
      | cons d ds ih => simp only [finishedAll, isFinished, hv.world, ih]
    simp only [evalLeaf, this, hv.nodes]
  | threshold d p thr cmp ix at_ rt g => simp only [evalLeaf]; rw [hv.world]
  | _ => exact hk.elim

theorem evalLeaf_clock (hv : v'.clock id = v.clock id) {k : Leaf α κ W} (hk : PastLeaf k)
    (o o' : Option α) : evalLeaf v' id o' k = evalLeaf v id o k := by
  cases k <;> first | exact hk.elim | simp only [evalLeaf, relTime, hv]

mutual
theorem eval_calm (hv : Calm id v v') : ∀ (c : Cond α κ W) (st st' : Store α κ), Settled c →
    (eval v' id c st').1 = (eval v id c st).1
  | .leaf o k, st, st', hk => evalLeaf_calm hv hk _ _
  | .all o args, st, st', hk => evalAll_calm hv args st st' hk
  | .any o args, st, st', hk => evalAny_calm hv args st st' hk
  | .not o c, st, st', hk => by simp only [eval]; rw [eval_calm hv c st st' hk]
  | .nwhen .., _, _, hk => hk.elim
  | .whileNot .., _, _, hk => hk.elim
theorem evalAll_calm (hv : Calm id v v') : ∀ (cs : List (Cond α κ W)) (st st' : Store α κ),
    SettledAll cs → (evalAll v' id cs st').1 = (evalAll v id cs st).1
  | [], _, _, _ => rfl
  | c :: cs, st, st', hk => by
    have k := eval_calm hv c st st' hk.1
    simp only [evalAll]
    rcases e : eval v id c st with ⟨r, t⟩
    rcases e' : eval v' id c st' with ⟨r', t'⟩
    rw [e, e'] at k
    dsimp only at k
    subst k
    rcases r' with x | x
    · rfl
    · cases x
      · rfl
      · exact evalAll_calm hv cs t t' hk.2
theorem evalAny_calm (hv : Calm id v v') : ∀ (cs : List (Cond α κ W)) (st st' : Store α κ),
    SettledAll cs → (evalAny v' id cs st').1 = (evalAny v id cs st).1
  | [], _, _, _ => rfl
  | c :: cs, st, st', hk => by
    have k := eval_calm hv c st st' hk.1
    simp only [evalAny]
    rcases e : eval v id c st with ⟨r, t⟩
    rcases e' : eval v' id c st' with ⟨r', t'⟩
    rw [e, e'] at k
    dsimp only at k
    subst k
    rcases r' with x | x
    · rfl
    · cases x
      · exact evalAny_calm hv cs t t' hk.2
      · rfl
end

mutual
theorem eval_still (hv : Calm id v v') (hc : v'.clock id = v.clock id) :
    ∀ (c : Cond α κ W) (st st' : Store α κ), Lasting c →
    (eval v' id c st').1 = (eval v id c st).1
  | .leaf o k, st, st', hk => hk.elim (fun hk => evalLeaf_calm hv hk _ _)
      fun hk => evalLeaf_clock hc hk _ _
  | .all o args, st, st', hk => evalAll_still hv hc args st st' hk
  | .any o args, st, st', hk => evalAny_still hv hc args st st' hk
  | .not o c, st, st', hk => by simp only [eval]; rw [eval_calm hv c st st' hk]
  | .nwhen .., _, _, hk => hk.elim
  | .whileNot .., _, _, hk => hk.elim
theorem evalAll_still (hv : Calm id v v') (hc : v'.clock id = v.clock id) :
    ∀ (cs : List (Cond α κ W)) (st st' : Store α κ),
    LastingAll cs → (evalAll v' id cs st').1 = (evalAll v id cs st).1
  | [], _, _, _ => rfl
  | c :: cs, st, st', hk => by
    have k := eval_still hv hc c st st' hk.1
    simp only [evalAll]
    rcases e : eval v id c st with ⟨r, t⟩
    rcases e' : eval v' id c st' with ⟨r', t'⟩
    rw [e, e'] at k
    dsimp only at k
    subst k
    rcases r' with x | x
    · rfl
    · cases x
      · rfl
      · exact evalAll_still hv hc cs t t' hk.2
theorem evalAny_still (hv : Calm id v v') (hc : v'.clock id = v.clock id) :
    ∀ (cs : List (Cond α κ W)) (st st' : Store α κ),
    LastingAll cs → (evalAny v' id cs st').1 = (evalAny v id cs st).1
  | [], _, _, _ => rfl
  | c :: cs, st, st', hk => by
    have k := eval_still hv hc c st st' hk.1
    simp only [evalAny]
    rcases e : eval v id c st with ⟨r, t⟩
    rcases e' : eval v' id c st' with ⟨r', t'⟩
    rw [e, e'] at k
    dsimp only at k
    subst k
    rcases r' with x | x
    · rfl
    · cases x
      · exact evalAny_still hv hc cs t t' hk.2
      · rfl
end

/-- What a pass tick can do to the result of a lasting condition. -/
def StillTrue (r r' : Except Err Bool) : Prop := r = .ok true → r' ≠ .ok false

theorem elapsed_pass (log : List TimeScale) {ts : TimeScale} (ht : Coarse ts) (q : TimeScale) :
    elapsed log ts q ≤ elapsed (log ++ [pass]) ts q := by
  rw [Props.elapsed_append log [pass] ts q (by
    intro e he; rw [List.mem_singleton.1 he]; exact ht)]
  exact Nat.le_add_right _ _

theorem evalLeaf_tick {log : List TimeScale} (h1 : Shows (v.clock id) log)
    (h2 : Shows (v'.clock id) (log ++ [pass])) {k : Leaf α κ W} (hk : PastLeaf k)
    (o o' : Option α) : StillTrue (evalLeaf v id o k) (evalLeaf v' id o' k) := by
  have key : ∀ (q ts : TimeScale) (f : Int → Bool), q.val < ts.val → Coarse ts →
      (∀ x y : Int, x ≤ y → f x = true → f y = true) →
      StillTrue (relTime v id q ts f) (relTime v' id q ts f) := by
    intro q ts f hq ht hf
    have hr : Props.Recorded ts := by
      revert ht; unfold Coarse; cases ts <;> simp [val, Props.Recorded]
    have e1 := Props.clock_elapsed h1 hr hq
    have e2 := Props.clock_elapsed h2 hr hq
    unfold relTime
    rw [e1, e2]
    intro h3 h4
    injection h3 with h3
    injection h4 with h4
    have := hf _ _ (Int.ofNat_le.2 (elapsed_pass log ht q)) h3
    rw [h4] at this; cases this
  have hseq : (v'.clock id).time.at_ environment_sequence =
      (v.clock id).time.at_ environment_sequence := by
    obtain ⟨_, _, e1⟩ := shows_iff.1 h1
    obtain ⟨_, _, e2⟩ := shows_iff.1 h2
    rw [e1, e2, field_snoc]
    rfl
  have hc : ∀ ts : TimeScale, Coarse ts → consideration_set_execution.val < ts.val :=
    fun ts ht => Nat.lt_trans (by decide) ht
  cases k <;> first | exact hk.elim | skip
  case afterPass n ts =>
    simp only [evalLeaf]
    refine key _ _ _ hk hk fun x y hxy => ?_
    simp only [decide_eq_true_eq]; omega
  case afterNPasses n ts =>
    simp only [evalLeaf]
    refine key _ _ _ hk hk fun x y hxy => ?_
    simp only [decide_eq_true_eq]; omega
  case afterConsiderationSetExecution n ts =>
    simp only [evalLeaf]
    refine key _ _ _ (hc _ hk) hk fun x y hxy => ?_
    simp only [decide_eq_true_eq]; omega
  case afterNConsiderationSetExecutions n ts =>
    simp only [evalLeaf]
    refine key _ _ _ (hc _ hk) hk fun x y hxy => ?_
    simp only [decide_eq_true_eq]; omega
  case afterEnvironmentStateUpdate n ts =>
    simp only [evalLeaf]
    refine key _ _ _ hk (Nat.lt_trans (by decide) hk) fun x y hxy => ?_
    simp only [decide_eq_true_eq]; omega
  case afterNEnvironmentStateUpdates n ts =>
    simp only [evalLeaf]
    refine key _ _ _ hk (Nat.lt_trans (by decide) hk) fun x y hxy => ?_
    simp only [decide_eq_true_eq]; omega
  case afterEnvironmentSequence n =>
    intro h3 h4; simp only [evalLeaf, hseq] at h3 h4; rw [h3] at h4; cases h4
  case afterNEnvironmentSequences n =>
    intro h3 h4; simp only [evalLeaf, hseq] at h3 h4; rw [h3] at h4; cases h4

mutual
theorem eval_tick {log : List TimeScale} (hv : Calm id v v') (h1 : Shows (v.clock id) log)
    (h2 : Shows (v'.clock id) (log ++ [pass])) :
    ∀ (c : Cond α κ W) (st st' : Store α κ), Lasting c →
    StillTrue (eval v id c st).1 (eval v' id c st').1
  | .leaf o k, st, st', hk => hk.elim
      (fun hk => by
        have := evalLeaf_calm hv hk (st.owner o) (st'.owner o)
        intro h3; show evalLeaf v' id (st'.owner o) k ≠ _
        rw [this]; intro h4; have h5 : evalLeaf v id (st.owner o) k = .ok true := h3
        rw [h5] at h4; cases h4)
      fun hk => evalLeaf_tick h1 h2 hk _ _
  | .all o args, st, st', hk => evalAll_tick hv h1 h2 args st st' hk
  | .any o args, st, st', hk => evalAny_tick hv h1 h2 args st st' hk
  | .not o c, st, st', hk => by
    simp only [eval]; rw [eval_calm hv c st st' hk]
    intro h3 h4; rw [h3] at h4; cases h4
  | .nwhen .., _, _, hk => hk.elim
  | .whileNot .., _, _, hk => hk.elim
theorem evalAll_tick {log : List TimeScale} (hv : Calm id v v') (h1 : Shows (v.clock id) log)
    (h2 : Shows (v'.clock id) (log ++ [pass])) :
    ∀ (cs : List (Cond α κ W)) (st st' : Store α κ), LastingAll cs →
    StillTrue (evalAll v id cs st).1 (evalAll v' id cs st').1
  | [], _, _, _ => fun _ h => by cases h
  | c :: cs, st, st', hk => by
    have k := eval_tick hv h1 h2 c st st' hk.1
    simp only [evalAll]
    rcases e : eval v id c st with ⟨r, t⟩
    rcases e' : eval v' id c st' with ⟨r', t'⟩
    rw [e, e'] at k
    dsimp only at k
    have k2 := evalAll_tick hv h1 h2 cs t t' hk.2
    rcases r with x | x
    · intro h3; cases h3
    · cases x
      · intro h3; cases h3
      · rcases r' with y | y
        · intro _ h4; cases h4
        · cases y
          · exact absurd rfl (k rfl)
          · exact k2
theorem evalAny_tick {log : List TimeScale} (hv : Calm id v v') (h1 : Shows (v.clock id) log)
    (h2 : Shows (v'.clock id) (log ++ [pass])) :
    ∀ (cs : List (Cond α κ W)) (st st' : Store α κ), LastingAll cs →
    StillTrue (evalAny v id cs st).1 (evalAny v' id cs st').1
  | [], _, _, _ => fun h _ => by cases h
  | c :: cs, st, st', hk => by
    have k := eval_tick hv h1 h2 c st st' hk.1
    simp only [evalAny]
    rcases e : eval v id c st with ⟨r, t⟩
    rcases e' : eval v' id c st' with ⟨r', t'⟩
    rw [e, e'] at k
    dsimp only at k
    have k2 := evalAny_tick hv h1 h2 cs t t' hk.2
    rcases r with x | x
    · intro h3; cases h3
    · rcases r' with y | y
      · intro _ h4; cases h4
      · cases y
        · cases x
          · exact k2
          · exact absurd rfl (k rfl)
        · intro _ h4; cases h4
end

/-! ## Termination -/

/-- Both termination conditions are lasting. -/
def LastingEnd (a : RunArgs α κ W) : Prop := Lasting a.esu ∧ Lasting a.seq

theorem unsatisfied_iff (ha : LastingEnd a) :
    Unsatisfied s a ↔ (eval s.toView a.id a.esu s.store).1 = .ok false ∧
      (eval s.toView a.id a.seq s.store).1 = .ok false := by
  have p1 := plain_store (id := a.id) (lasting_plain _ ha.1) s.toView s.store
  have p2 := plain_store (id := a.id) (lasting_plain _ ha.2) s.toView s.store
  constructor
  · rintro ⟨st1, st2, h1, h2⟩
    rw [h1] at p1
    dsimp only at p1
    subst p1
    exact ⟨by rw [h1], by rw [h2]⟩
  · rintro ⟨h1, h2⟩
    exact ⟨s.store, s.store, Prod.ext h1 p1, Prod.ext h2 p2⟩

theorem Unsatisfied.calm (ha : LastingEnd a) (hu : Unsatisfied s a) (hv : Calm a.id s.toView s'.toView)
    (hc : s'.clock a.id = s.clock a.id) : Unsatisfied s' a := by
  obtain ⟨h1, h2⟩ := (unsatisfied_iff ha).1 hu
  refine (unsatisfied_iff ha).2 ⟨?_, ?_⟩
  · rw [eval_still hv hc a.esu s.store s'.store ha.1]; exact h1
  · rw [eval_still hv hc a.seq s.store s'.store ha.2]; exact h2

/-- A satisfied termination condition is not unsatisfied after the pass. -/
theorem done_tick (ha : LastingEnd a) {st : Store α κ} (hd : Done s a st) {log : List TimeScale}
    (hv : Calm a.id s.toView s'.toView) (h1 : Shows (s.clock a.id) log)
    (h2 : Shows (s'.clock a.id) (log ++ [pass])) : ¬ Unsatisfied s' a := by
  intro hu
  obtain ⟨u1, u2⟩ := (unsatisfied_iff ha).1 hu
  rcases hd with hd | ⟨st1, _, hd⟩
  · exact eval_tick hv h1 h2 a.esu s.store s'.store ha.1 (by rw [hd]) u1
  · exact eval_tick hv h1 h2 a.seq st1 s'.store ha.2 (by rw [hd]) u2

/-! ## Runs -/

theorem Calm.refl (v : View α κ W) : Calm id v v := ⟨rfl, rfl, rfl, fun _ _ _ => rfl⟩

theorem calm_reset (s : Sys α κ W) {f} (hf : Dict.get? s.countsTotal id = some f) (st : Store α κ) :
    Calm id s.toView ((s.putStore st).putTotal id (resetF pass f)).toView := by
  refine ⟨rfl, rfl, rfl, fun ts d ht => ?_⟩
  show View.total _ id ts d = View.total _ id ts d
  unfold View.total
  have e : Dict.get? ((s.putStore st).putTotal id (resetF pass f)).countsTotal id =
      some (resetF pass f) := Dict.get?_set_self ..
  have hn : ¬ ts.val ≤ pass.val := Nat.not_le.2 ht
  rw [e, hf]
  simp only [resetF, hn, if_false]
  rfl

theorem going_unsatisfied {st : Store α κ} (hg : Going s a st) : Unsatisfied s a := by
  obtain ⟨st1, h1, h2⟩ := hg; exact ⟨st1, st, h1, h2⟩

/-- While nothing is chosen in a pass, the termination conditions are still not satisfied. -/
def Quiet (a : RunArgs α κ W) (abs : Bool) (s : Sys α κ W) : PC α → Prop
  | .inner _ ch => abs = false → ch = false → Unsatisfied s a
  | .choosing c => abs = false → c.changed = false → c.exec = [] → Unsatisfied s a
  | .yielded _ ch => abs = false → ch = true
  | _ => True

theorem Spec.Scripted.quiet (ha : LastingEnd a) (hr : Scripted w a s0 abs h s pc) :
    Quiet a abs s pc := by
  have same : ∀ {s : Sys α κ W} {st : Store α κ}, Unsatisfied s a → Unsatisfied (s.putStore st) a :=
    fun {s st} hu => Unsatisfied.calm ha hu (.refl _) rfl
  induction hr with
  | start hs => trivial
  | @step h s t pc pc' ev _ hst ih =>
    have hq : Quiet a abs (Spec.resumed w (yields h) s pc) pc := by
      cases pc <;> exact ih
    clear ih
    generalize Spec.resumed w (yields h) s pc = s at hst hq
    cases Sys.step_stepR hst with
    | pass hg hf =>
      intro _ _
      exact Unsatisfied.calm ha (going_unsatisfied hg) (calm_reset s hf _) rfl
    | stopSkip hd h1 h2 => trivial
    | stopIncr hd h1 h2 h3 => trivial
    | passEnd hl h1 h2 => trivial
    | emptyYield hl h1 h2 => trivial
    | consider h1 hg => exact fun _ _ _ => same (going_unsatisfied hg)
    | again ht hag => exact fun k1 k2 k3 => hq k1 k2 k3
    | skip ht hn => exact fun k1 k2 k3 => hq k1 k2 k3
    | reject ht hn hc he => exact fun k1 k2 k3 => same (hq k1 k2 k3)
    | add ht hn hc he hf hu hm =>
      intro _ _ k3
      exact absurd k3 (by simp)
    | yield ht hag h1 hne hx => exact fun _ => rfl
    | yieldAbs ht hag h1 hx hts => intro k; rw [h1] at k; cases k
    | silent ht hag h1 hne => exact fun k1 k2 => hq k1 k2 hne
    | resume hc => intro k1 k2; rw [hq k1] at k2; cases k2
    | resumeEmpty h1 h2 => trivial
    | returned => trivial
    | raised => trivial
    | fails hp hfr hev => trivial

/-- The end of a run: it is over, or the termination conditions are not unsatisfied when the
next pass would begin. -/
def Ending (a : RunArgs α κ W) (s : Sys α κ W) : PC α → Prop
  | .outer => ¬ Unsatisfied s a
  | .returned => True
  | .raised _ => True
  | _ => False

theorem ending_step (hst : StepR a abs s pc s' pc' ev) (he : Ending a s pc) :
    Ending a s' pc' ∧ ev.bind Event.yield? = none := by
  cases hst with
  | pass hg hf => exact absurd (going_unsatisfied hg) he
  | stopSkip => exact ⟨trivial, rfl⟩
  | stopIncr => exact ⟨trivial, rfl⟩
  | returned => exact ⟨trivial, rfl⟩
  | raised => exact ⟨trivial, rfl⟩
  | fails hp hfr hev =>
    refine ⟨trivial, ?_⟩
    rcases hev with rfl | ⟨_, rfl, _⟩ <;> rfl
  | _ => exact he.elim

theorem cut_step (ha : LastingEnd a) (hst : StepR a abs s pc s' pc' ev) (hq : Quiet a abs s pc)
    {log0 py} (hc : ClockAt a log0 py (s.clock a.id) pc) (hg : ¬ GoesOn a s pc) :
    Ending a s' pc' ∧ ev.bind Event.yield? = none := by
  cases pc with
  | outer => exact ending_step hst hg
  | inner i ch =>
    simp only [GoesOn, Classical.not_imp] at hg
    obtain ⟨hi, hg⟩ := hg
    cases hst with
    | @passEnd _ _ st c hl h1 h2 =>
      refine ⟨?_, rfl⟩
      rcases hl with ⟨hl, _⟩ | ⟨_, hd⟩
      · rw [List.getElem?_eq_none_iff] at hl; omega
      · obtain ⟨ps, p, _, hs⟩ := hc
        have e : ((s.putStore st).setClock a.id c).clock a.id = c := Sys.clock_setClock ..
        refine done_tick ha (s := s) (s' := (s.putStore st).setClock a.id c) hd
          ⟨rfl, rfl, rfl, fun _ _ _ => rfl⟩ hs ?_
        show Shows (((s.putStore st).setClock a.id c).clock a.id) _
        rw [e]
        obtain ⟨c', k1, k2⟩ := hs.incr (ts := pass) (by decide)
        rw [h2] at k1
        cases k1
        exact k2
    | emptyYield hl h1 h2 => exact absurd (hq h1 rfl) hg
    | consider h1 h2 => exact absurd (going_unsatisfied h2) hg
    | fails hp hfr hev =>
      refine ⟨trivial, ?_⟩
      rcases hev with rfl | ⟨_, rfl, _⟩ <;> rfl
  | _ => exact absurd trivial hg

theorem yields_snoc_ev (h : History α κ W) (ev : Option (Event α)) (s s' : Sys α κ W) :
    yields (h ++ ev.toList.map fun x => ⟨s, x, s'⟩) = yields h ++ (ev.bind Event.yield?).toList := by
  unfold yields
  rw [List.filterMap_append]
  cases ev with
  | none => rfl
  | some x => cases e : x.yield? <;> simp [e]

/-- A run is a run whose termination conditions have not been satisfied, or that followed by
the end, in which nothing is yielded. -/
theorem Spec.Scripted.cut (ha : LastingEnd a) {log0 : List TimeScale}
    (h0 : Shows (s0.clock a.id) log0) (hr : Scripted w a s0 abs h s pc) :
    (∃ n, Unended w a s0 abs n h s pc) ∨
    (Ending a s pc ∧ ∃ n h1 s1 pc1, Unended w a s0 abs n h1 s1 pc1 ∧
      yields h1 = yields h ∧ ¬ GoesOn a s1 pc1) := by
  induction hr with
  | start hs => exact .inl ⟨0, .start hs⟩
  | @step h s t pc pc' ev hr hst ih =>
    rw [yields_snoc_ev]
    rcases ih with ⟨n, hn⟩ | ⟨he, n, h1, s1, pc1, hn, hy, hng⟩
    · by_cases hg : GoesOn a (Spec.resumed w (yields h) s pc) pc
      · exact .inl ⟨n + 1, .step hn hg hst⟩
      · right
        have e : Spec.resumed w (yields h) s pc = s := by
          cases pc <;> first | rfl | exact absurd trivial hg
        rw [e] at hg hst
        have hc := hr.reach.clockAt (by rintro s s' ⟨w, rfl⟩; rfl) h0
        obtain ⟨k1, k2⟩ := cut_step ha (Sys.step_stepR hst) (hr.quiet ha) hc hg
        rw [k2]
        exact ⟨k1, n, h, s, pc, hn, by simp, hg⟩
    · right
      have e : Spec.resumed w (yields h) s pc = s := by
        cases pc <;> first | rfl | exact he.elim
      rw [e] at hst
      obtain ⟨k1, k2⟩ := ending_step (Sys.step_stepR hst) he
      rw [k2]
      exact ⟨k1, n, h1, s1, pc1, hn, by simpa using hy, hng⟩

end GS
