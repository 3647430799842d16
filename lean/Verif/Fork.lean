import Verif.Spec.Fork
import Verif.Again
/-!
# Lemmas: a run of a fork does what a run of its base does
-/

set_option linter.unusedSectionVars false

namespace GS
open Spec TimeScale
variable {α κ W : Type _} [DecidableEq α] [DecidableEq κ]
variable {a a' : RunArgs α κ W} {s s' t t' : Sys α κ W} {P : Nat → Prop} {i j : Option κ}

/-- The same happened in the current environment state update. -/
def SinceSame (i j : Option κ) (v v' : View α κ W) : Prop :=
  ∃ log log', Shows (v.clock i) log ∧ Shows (v'.clock j) log' ∧ sinceUpdate log' = sinceUpdate log

/-- The condition objects as seen by `i` and by its fork `j`. -/
structure ForkStore (P : Nat → Prop) (i j : Option κ) (st st' : Store α κ) : Prop where
  owner : st'.owner = st.owner
  fresh : st'.fresh = st.fresh
  sat : ∀ o, P o → st'.sat o j = st.sat o i

theorem SinceSame.relative {v v' : View α κ W} (h : SinceSame i j v v') {q : TimeScale}
    (hq : q.val < 2) :
    (v'.clock j).getTotalTimesRelative q environment_state_update =
      (v.clock i).getTotalTimesRelative q environment_state_update := by
  obtain ⟨log, log', h1, h2, h3⟩ := h
  rw [Props.clock_elapsed h1 (.inr (by decide)) hq, Props.clock_elapsed h2 (.inr (by decide)) hq,
    elapsed_update, elapsed_update, h3]

theorem evalLeaf_fork {v v' : View α κ W} (h : Forked i j v v') (hc : SinceSame i j v v')
    (hw : WorldFor i j v.world v.world) (o : Option α) (k : Leaf α κ W) (hk : ForkLeaf i j k) :
    evalLeaf v' j o k = evalLeaf v i o k := by
  have htot : ∀ ts n, v'.total j ts n = v.total i ts n := by
    intro ts n; unfold View.total; rw [h.total, h.nodes]
  have huse : ∀ x b, v'.useable j x b = v.useable i x b := by
    intro x b; unfold View.useable; rw [h.useable, h.nodes]
  have hsum : ∀ ts ds, sumCalls v' j ts ds = sumCalls v i ts ds := by
    intro ts ds
    induction ds with
    | nil => rfl
    | cons d ds ih => unfold sumCalls; rw [htot, ih]
  have hall : ∀ ts ds, allHaveRunFunc v' j ts ds = allHaveRunFunc v i ts ds := by
    intro ts ds
    induction ds with
    | nil => rfl
    | cons d ds ih => unfold allHaveRunFunc; rw [htot, ih]
  have hfin : ∀ d, isFinished v' j d = isFinished v i d := by
    intro d; unfold isFinished; rw [h.world, hw.finished d]
  have hany : ∀ ds, finishedAny v' j ds = finishedAny v i ds := by
    intro ds
    induction ds with
    | nil => rfl
    | cons d ds ih => unfold finishedAny; rw [hfin, ih]
  have hfall : ∀ ds, finishedAll v' j ds = finishedAll v i ds := by
    intro ds
    induction ds with
    | nil => rfl
    | cons d ds ih => unfold finishedAll; rw [hfin, ih]
  have hget : Dict.get v'.execList j = Dict.get v.execList i := by unfold Dict.get; rw [h.list]
  have hpar : ∀ d p g, getParameterValue v'.world j d p g = getParameterValue v.world i d p g := by
    intro d p g
    rw [h.world]
    cases g with
    | none => exact hw.attr d p
    | some g => exact hw.getter g d p
  have hrel : ∀ (q ts : TimeScale) f, q.val < 2 → ts = environment_state_update →
      relTime v' j q ts f = relTime v i q ts f := by
    rintro q ts f h1 rfl; unfold relTime; rw [hc.relative h1]
  cases k with
  | func f => exact hk v v' o h
  | timeInterval => exact hk.elim
  | timeTermination => exact hk.elim
  | beforeConsiderationSetExecution n ts => simp only [evalLeaf]; exact hrel _ _ _ (by decide) hk
  | atConsiderationSetExecution n ts => simp only [evalLeaf]; exact hrel _ _ _ (by decide) hk
  | afterConsiderationSetExecution n ts => simp only [evalLeaf]; exact hrel _ _ _ (by decide) hk
  | afterNConsiderationSetExecutions n ts => simp only [evalLeaf]; exact hrel _ _ _ (by decide) hk
  | beforePass n ts => simp only [evalLeaf]; exact hrel _ _ _ (by decide) hk
  | atPass n ts => simp only [evalLeaf]; exact hrel _ _ _ (by decide) hk
  | afterPass n ts => simp only [evalLeaf]; exact hrel _ _ _ (by decide) hk
  | afterNPasses n ts => simp only [evalLeaf]; exact hrel _ _ _ (by decide) hk
  | everyNPasses n ts =>
    have hk : ts = environment_state_update := hk
    subst hk
    simp only [evalLeaf]
    rw [hc.relative (by decide)]
  | beforeEnvironmentStateUpdate => exact hk.elim
  | atEnvironmentStateUpdate => exact hk.elim
  | afterEnvironmentStateUpdate => exact hk.elim
  | afterNEnvironmentStateUpdates => exact hk.elim
  | atEnvironmentSequence => exact hk.elim
  | afterEnvironmentSequence => exact hk.elim
  | afterNEnvironmentSequences => exact hk.elim
  | threshold d p thr cmp ix at_ rt g => simp only [evalLeaf, thresholdValue, hpar]
  | _ => simp only [evalLeaf, callCount, justRanFunc, htot, huse, hsum, hall,
      hfin, hany, hfall, hget, h.nodes]

theorem ForkStore.bump {st st' : Store α κ} (h : ForkStore P i j st st') (o : OId) :
    ForkStore P i j (st.bumpSat o i) (st'.bumpSat o j) :=
  ⟨h.owner, h.fresh, fun x hx => by simp only [Store.bumpSat, and_true, h.sat x hx]⟩

/-- Results of two evaluations. -/
def ForkResult (P : Nat → Prop) (i j : Option κ) (r r' : EvalResult α κ) : Prop :=
  r'.1 = r.1 ∧ ForkStore P i j r.2 r'.2

mutual
theorem eval_fork {v v' : View α κ W} (h : Forked i j v v') (hc : SinceSame i j v v')
    (hw : WorldFor i j v.world v.world) :
    ∀ (c : Cond α κ W) (st st' : Store α κ), ForkCond P i j c → ForkStore P i j st st' →
      ForkResult P i j (eval v i c st) (eval v' j c st')
  | .leaf o k, st, st', hl, hs => by
    unfold eval
    exact ⟨by rw [hs.owner]; exact evalLeaf_fork h hc hw _ k hl, hs⟩
  | .whileNot o f, st, st', hl, hs => by
    unfold eval
    exact ⟨by rw [hs.owner]; exact congrArg notResult (hl v v' _ h), hs⟩
  | .all o args, st, st', hl, hs => evalAll_fork h hc hw args st st' hl hs
  | .any o args, st, st', hl, hs => evalAny_fork h hc hw args st st' hl hs
  | .not o c, st, st', hl, hs => by
    obtain ⟨h1, h2⟩ := eval_fork h hc hw c st st' hl hs
    unfold eval
    exact ⟨by rw [h1], h2⟩
  | .nwhen o c n, st, st', hl, hs => by
    obtain ⟨h1, h2⟩ := eval_fork h hc hw c st st' hl.2 hs
    unfold eval
    rw [hs.sat o hl.1]
    split
    · rcases hr : eval v i c st with ⟨r, st1⟩
      rcases hr' : eval v' j c st' with ⟨r', st1'⟩
      rw [hr, hr'] at h1 h2
      simp only at h1 h2
      subst h1
      rcases r' with e | b
      · exact ⟨rfl, h2⟩
      · cases b
        · exact ⟨rfl, h2⟩
        · exact ⟨rfl, h2.bump o⟩
    · exact ⟨rfl, hs⟩
theorem evalAll_fork {v v' : View α κ W} (h : Forked i j v v') (hc : SinceSame i j v v')
    (hw : WorldFor i j v.world v.world) :
    ∀ (cs : List (Cond α κ W)) (st st' : Store α κ), ForkConds P i j cs → ForkStore P i j st st' →
      ForkResult P i j (evalAll v i cs st) (evalAll v' j cs st')
  | [], st, st', _, hs => ⟨rfl, hs⟩
  | c :: cs, st, st', hl, hs => by
    obtain ⟨h1, h2⟩ := eval_fork h hc hw c st st' hl.1 hs
    unfold evalAll
    rcases hr : eval v i c st with ⟨r, st1⟩
    rcases hr' : eval v' j c st' with ⟨r', st1'⟩
    rw [hr, hr'] at h1 h2
    simp only at h1 h2
    subst h1
    rcases r' with e | b
    · exact ⟨rfl, h2⟩
    · cases b
      · exact ⟨rfl, h2⟩
      · exact evalAll_fork h hc hw cs st1 st1' hl.2 h2
theorem evalAny_fork {v v' : View α κ W} (h : Forked i j v v') (hc : SinceSame i j v v')
    (hw : WorldFor i j v.world v.world) :
    ∀ (cs : List (Cond α κ W)) (st st' : Store α κ), ForkConds P i j cs → ForkStore P i j st st' →
      ForkResult P i j (evalAny v i cs st) (evalAny v' j cs st')
  | [], st, st', _, hs => ⟨rfl, hs⟩
  | c :: cs, st, st', hl, hs => by
    obtain ⟨h1, h2⟩ := eval_fork h hc hw c st st' hl.1 hs
    unfold evalAny
    rcases hr : eval v i c st with ⟨r, st1⟩
    rcases hr' : eval v' j c st' with ⟨r', st1'⟩
    rw [hr, hr'] at h1 h2
    simp only at h1 h2
    subst h1
    rcases r' with e | b
    · exact ⟨rfl, h2⟩
    · cases b
      · exact evalAny_fork h hc hw cs st1 st1' hl.2 h2
      · exact ⟨rfl, h2⟩
end


/-! ## Single operations -/

/-- Schedulers during corresponding runs under `i` and its fork `j`. -/
structure Branch (P : Nat → Prop) (i j : Option κ) (s s' : Sys α κ W) : Prop where
  view : Forked i j s.toView s'.toView
  clock : SinceSame i j s.toView s'.toView
  world : WorldFor i j s.world s.world
  store : ForkStore P i j s.store s'.store
  conds : s'.conds = s.conds
  fits : ∀ n c, Dict.get? s.conds n = some c → ForkCond P i j c

/-- Corresponding results. -/
def Branches {β : Type _} (P : Nat → Prop) (i j : Option κ) (x y : Sys α κ W × β) : Prop :=
  y.2 = x.2 ∧ Branch P i j x.1 y.1

def BranchE (P : Nat → Prop) (i j : Option κ) :
    Except Err (Sys α κ W) → Except Err (Sys α κ W) → Prop
  | .ok s, .ok s' => Branch P i j s s'
  | .error e, .error e' => e' = e
  | _, _ => False

/-- The arguments of corresponding runs. -/
structure BranchArgs (P : Nat → Prop) (i j : Option κ) (a a' : RunArgs α κ W) : Prop where
  id : a.id = i
  id' : a'.id = j
  skip : a'.skip = a.skip
  esuEq : a'.esu = a.esu
  seqEq : a'.seq = a.seq
  esu : ForkCond P i j a.esu
  seq : ForkCond P i j a.seq

theorem Branch.evalCond (h : Branch P i j s s') {c : Cond α κ W} (hc : ForkCond P i j c) :
    Branches P i j (s.evalCond i c) (s'.evalCond j c) := by
  obtain ⟨h1, h2⟩ := eval_fork h.view h.clock h.world c s.store s'.store hc h.store
  exact ⟨h1, h.view, h.clock, h.world, h2, h.conds, h.fits⟩

theorem Branch.incrClock (h : Branch P i j s s') {ts : TimeScale} (hts : ts ≠ life) :
    BranchE P i j (s.incrClock i ts) (s'.incrClock j ts) := by
  obtain ⟨log, log', h1, h2, h3⟩ := h.clock
  obtain ⟨c, e, k⟩ := h1.incr hts
  obtain ⟨c', e', k'⟩ := h2.incr hts
  unfold Sys.incrClock
  rw [e, e']
  refine ⟨⟨h.view.nodes, h.view.mode, h.view.graph, h.view.queue, h.view.world, h.view.total,
    h.view.useable, h.view.list⟩, ⟨log ++ [ts], log' ++ [ts], ?_, ?_, ?_⟩, h.world, h.store, h.conds,
    h.fits⟩
  · simp only [View.clock, Sys.setClock, Dict.get?_set_self]; exact k
  · simp only [View.clock, Sys.setClock, Dict.get?_set_self]; exact k'
  · unfold sinceUpdate at *
    simp only [List.reverse_append, List.reverse_cons, List.reverse_nil, List.nil_append,
      List.singleton_append, List.takeWhile_cons]
    rw [h3]

theorem Branch.putTotal (h : Branch P i j s s') (f) : Branch P i j (s.putTotal i f) (s'.putTotal j f) :=
  ⟨{ h.view with
      total := (Dict.get?_set_self _ _ _).trans (Dict.get?_set_self _ _ _).symm }, h.clock, h.world, h.store, h.conds, h.fits⟩

theorem Branch.putUseable (h : Branch P i j s s') (f) :
    Branch P i j (s.putUseable i f) (s'.putUseable j f) :=
  ⟨{ h.view with
      useable := (Dict.get?_set_self _ _ _).trans (Dict.get?_set_self _ _ _).symm }, h.clock, h.world, h.store, h.conds, h.fits⟩

theorem Branch.putList (h : Branch P i j s s') (f) : Branch P i j (s.putList i f) (s'.putList j f) :=
  ⟨{ h.view with
      list := (Dict.get?_set_self _ _ _).trans (Dict.get?_set_self _ _ _).symm }, h.clock, h.world, h.store, h.conds, h.fits⟩

theorem Branch.resetTotal (h : Branch P i j s s') (ts : TimeScale) :
    BranchE P i j (s.resetTotal ts i) (s'.resetTotal ts j) := by
  unfold Sys.resetTotal
  rw [h.view.total]
  cases Dict.get? s.countsTotal i with
  | none => exact rfl
  | some f => exact h.putTotal _

theorem Branch.fire (h : Branch P i j s s') (n : α) :
    BranchE P i j (s.fire i n) (s'.fire j n) := by
  unfold Sys.fire
  rw [h.view.total, h.view.useable]
  cases Dict.get? s.countsTotal i with
  | none => exact rfl
  | some f =>
    dsimp only
    have hn : (n ∈ s'.nodes) = (n ∈ s.nodes) := by rw [h.view.nodes]
    simp only [hn]
    split
    · cases Dict.get? s.countsUseable i with
      | none => exact rfl
      | some u => exact (h.putTotal _).putUseable _
    · exact rfl

theorem Branch.record (h : Branch P i j s s') (set : List α) :
    Branches P i j (s.record i false set) (s'.record j false set) := by
  unfold Sys.record
  rw [h.view.list]
  cases Dict.get? s.execList i with
  | none => exact ⟨rfl, h⟩
  | some l => exact ⟨rfl, h.putList _⟩

theorem Branch.continues (h : Branch P i j s s') (ha : BranchArgs P i j a a') :
    Branches P i j (s.continues a) (s'.continues a') := by
  have h1 := h.evalCond ha.esu
  unfold Sys.continues
  rw [ha.id, ha.id', ha.esuEq, ha.seqEq]
  rcases e : s.evalCond i a.esu with ⟨t, r⟩
  rcases e' : s'.evalCond j a.esu with ⟨t', r'⟩
  rw [e, e'] at h1
  obtain ⟨h2, h3⟩ := h1
  dsimp only at h2 h3
  subst h2
  rcases r' with x | x
  · exact ⟨rfl, h3⟩
  · cases x
    · have h4 := h3.evalCond ha.seq
      dsimp only
      rcases f : t.evalCond i a.seq with ⟨u, q⟩
      rcases f' : t'.evalCond j a.seq with ⟨u', q'⟩
      rw [f, f'] at h4
      obtain ⟨h5, h6⟩ := h4
      dsimp only at h5 h6
      subst h5
      rcases q' with x | x <;> exact ⟨rfl, h6⟩
    · exact ⟨rfl, h3⟩

theorem Branch.considerNode (h : Branch P i j s s') (n : α) :
    Branches P i j (s.considerNode i n) (s'.considerNode j n) := by
  unfold Sys.considerNode
  rw [h.conds]
  cases h1 : Dict.get? s.conds n with
  | none => exact ⟨rfl, h⟩
  | some c =>
    dsimp only
    have k := h.evalCond (h.fits n c h1)
    rcases e : s.evalCond i c with ⟨t, r⟩
    rcases e' : s'.evalCond j c with ⟨t', r'⟩
    rw [e, e'] at k
    obtain ⟨k1, k2⟩ := k
    dsimp only at k1 k2
    subst k1
    rcases r' with x | x
    · exact ⟨rfl, k2⟩
    · cases x
      · exact ⟨rfl, k2⟩
      · have k3 := k2.fire n
        dsimp only
        rcases f : t.fire i n with x | u <;> rcases f' : t'.fire j n with x' | u' <;>
          rw [f, f'] at k3
        · cases k3; exact ⟨rfl, k2⟩
        · exact k3.elim
        · exact k3.elim
        · exact ⟨rfl, k3⟩

theorem Branch.endPass (h : Branch P i j s s') (ha : BranchArgs P i j a a') (changed : Bool) :
    Branches P i j (s.endPass a false changed) (s'.endPass a' false changed) := by
  unfold Sys.endPass
  rw [ha.id, ha.id']
  split
  · have k := h.record []
    rcases e : s.record i false [] with ⟨t, r⟩
    rcases e' : s'.record j false [] with ⟨t', r'⟩
    rw [e, e'] at k
    obtain ⟨k1, k2⟩ := k
    dsimp only at k1 k2
    subst k1
    rcases r' with _ | x <;> exact ⟨rfl, k2⟩
  · have k3 := h.incrClock (ts := .pass) (by decide)
    rcases f : s.incrClock i .pass with x | u <;> rcases f' : s'.incrClock j .pass with x' | u' <;>
      rw [f, f'] at k3
    · cases k3; exact ⟨rfl, h⟩
    · exact k3.elim
    · exact k3.elim
    · exact ⟨rfl, k3⟩

theorem Branch.endChoice (h : Branch P i j s s') (ha : BranchArgs P i j a a') (c : Choice α) :
    Branches P i j (s.endChoice a false c) (s'.endChoice a' false c) := by
  unfold Sys.endChoice
  rw [ha.id, ha.id']
  dsimp only
  split
  · have k := h.record c.exec
    rcases e : s.record i false c.exec with ⟨t, r⟩
    rcases e' : s'.record j false c.exec with ⟨t', r'⟩
    rw [e, e'] at k
    obtain ⟨k1, k2⟩ := k
    dsimp only at k1 k2
    subst k1
    rcases r' with _ | x <;> exact ⟨rfl, k2⟩
  · exact ⟨rfl, h⟩

theorem Branch.choose (h : Branch P i j s s') (ha : BranchArgs P i j a a') (c : Choice α) :
    Branches P i j (s.choose a false c) (s'.choose a' false c) := by
  unfold Sys.choose
  split
  · split
    · exact ⟨rfl, h⟩
    · exact h.endChoice ha c
  · rename_i n ns _
    split
    · exact ⟨rfl, h⟩
    · rw [ha.id, ha.id']
      have k := h.considerNode n
      rcases e : s.considerNode i n with ⟨t, r⟩
      rcases e' : s'.considerNode j n with ⟨t', r'⟩
      rw [e, e'] at k
      obtain ⟨k1, k2⟩ := k
      dsimp only at k1 k2
      subst k1
      rcases r' with x | x
      · exact ⟨rfl, k2⟩
      · cases x <;> exact ⟨rfl, k2⟩

theorem Branch.finish (h : Branch P i j s s') (ha : BranchArgs P i j a a') :
    Branches P i j (s.finish a) (s'.finish a') := by
  have k : BranchE P i j (if a.skip then .ok s else s.incrClock i .environment_state_update)
      (if a.skip then .ok s' else s'.incrClock j .environment_state_update) := by
    split
    · exact h
    · exact h.incrClock (by decide)
  unfold Sys.finish
  rw [ha.id, ha.id', ha.skip, ha.seqEq]
  rcases f : (if a.skip then .ok s else s.incrClock i .environment_state_update :
      Except Err (Sys α κ W)) with x | u <;>
    rcases f' : (if a.skip then .ok s' else s'.incrClock j .environment_state_update :
      Except Err (Sys α κ W)) with x' | u' <;>
      rw [f, f'] at k
  · cases k; exact ⟨rfl, h⟩
  · exact k.elim
  · exact k.elim
  · dsimp only
    have k1 := Branch.evalCond k ha.seq
    rcases e : u.evalCond i a.seq with ⟨t, r⟩
    rcases e' : u'.evalCond j a.seq with ⟨t', r'⟩
    rw [e, e'] at k1
    obtain ⟨k1, k2⟩ := k1
    dsimp only at k1 k2
    subst k1
    rcases r' with x | x <;> exact ⟨rfl, k2⟩

theorem Branch.step (h : Branch P i j s s') (ha : BranchArgs P i j a a') (pc : PC α) :
    Branches P i j (s.step a false pc) (s'.step a' false pc) := by
  cases pc with
  | outer =>
    have k := h.continues ha
    simp only [Sys.step]
    rw [ha.id, ha.id']
    rcases e : s.continues a with ⟨t, r⟩
    rcases e' : s'.continues a' with ⟨t', r'⟩
    rw [e, e'] at k
    obtain ⟨k1, k2⟩ := k
    dsimp only at k1 k2
    subst k1
    rcases r' with x | x
    · exact ⟨rfl, k2⟩
    · cases x
      · exact k2.finish ha
      · have k3 := k2.resetTotal .pass
        dsimp only
        rcases f : t.resetTotal .pass i with x | u <;>
          rcases f' : t'.resetTotal .pass j with x' | u' <;> rw [f, f'] at k3
        · cases k3; exact ⟨rfl, k2⟩
        · exact k3.elim
        · exact k3.elim
        · exact ⟨rfl, k3⟩
  | inner idx changed =>
    have hq : s'.queue = s.queue := h.view.queue
    simp only [Sys.step]
    rw [hq]
    cases s.queue[idx]? with
    | none => exact h.endPass ha changed
    | some layer =>
      dsimp only
      have k := h.continues ha
      rcases e : s.continues a with ⟨t, r⟩
      rcases e' : s'.continues a' with ⟨t', r'⟩
      rw [e, e'] at k
      obtain ⟨k1, k2⟩ := k
      dsimp only at k1 k2
      subst k1
      rcases r' with x | x
      · exact ⟨rfl, k2⟩
      · cases x
        · exact k2.endPass ha changed
        · exact ⟨rfl, k2⟩
  | choosing c => exact h.choose ha c
  | yielded idx changed =>
    simp only [Sys.step]
    rw [ha.id, ha.id']
    have k3 := h.incrClock (ts := .consideration_set_execution) (by decide)
    rcases f : s.incrClock i .consideration_set_execution with x | u <;>
      rcases f' : s'.incrClock j .consideration_set_execution with x' | u' <;> rw [f, f'] at k3
    · cases k3; exact ⟨rfl, h⟩
    · exact k3.elim
    · exact k3.elim
    · exact ⟨rfl, k3⟩
  | yieldedEmpty =>
    simp only [Sys.step]
    rw [ha.id, ha.id']
    have k3 := h.incrClock (ts := .consideration_set_execution) (by decide)
    rcases f : s.incrClock i .consideration_set_execution with x | u <;>
      rcases f' : s'.incrClock j .consideration_set_execution with x' | u' <;> rw [f, f'] at k3
    · cases k3; exact ⟨rfl, h⟩
    · exact k3.elim
    · exact k3.elim
    · dsimp only
      have k4 := Branch.incrClock k3 (ts := .pass) (by decide)
      rcases g : u.incrClock i .pass with x | y <;>
        rcases g' : u'.incrClock j .pass with x' | y' <;> rw [g, g'] at k4
      · cases k4; exact ⟨rfl, k3⟩
      · exact k4.elim
      · exact k4.elim
      · exact ⟨rfl, k4⟩
  | returned => exact ⟨rfl, h⟩
  | raised e => exact ⟨rfl, h⟩

end GS
