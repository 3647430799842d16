import Verif.Spec.Again
import Verif.PartGraph
import Verif.Props.CondTime
/-!
# Lemmas: two runs, step by step, that see the same since the current update began
-/

set_option linter.unusedSectionVars false

namespace GS
open Spec TimeScale
variable {α κ W : Type _} [DecidableEq α] [DecidableEq κ]
variable {a a' : RunArgs α κ W} {s s' t t' : Sys α κ W} {P : Nat → Prop} {i j : Option κ}
variable {own own' : Nat → Option α}

/-! ## Two schedulers during runs -/

/-- Two schedulers that cannot be told apart by what happened in the current update. -/
structure Level (P : Nat → Prop) (own own' : Nat → Option α) (i j : Option κ) (s s' : Sys α κ W) :
    Prop where
  queue : s'.queue = s.queue
  nodes : s'.nodes = s.nodes
  conds : ∀ n, (Dict.get? s.conds n = none ∧ Dict.get? s'.conds n = none) ∨
    ∃ c c', Dict.get? s.conds n = some c ∧ Dict.get? s'.conds n = some c' ∧
      SameRecent P own own' c c'
  own : s.store.owner = own
  own' : s'.store.owner = own'
  sat : ∀ o, P o → s'.store.sat o j = s.store.sat o i
  total : ∃ f f', Dict.get? s.countsTotal i = some f ∧ Dict.get? s'.countsTotal j = some f' ∧
    ∀ ts n, ts.val ≤ 2 → f' ts n = f ts n
  useable : ∃ u, Dict.get? s.countsUseable i = some u ∧ Dict.get? s'.countsUseable j = some u
  list : (∃ l, Dict.get? s.execList i = some l) ∧ ∃ l, Dict.get? s'.execList j = some l
  clock : ∃ log log', Shows (s.clock i) log ∧ Shows (s'.clock j) log' ∧
    sinceUpdate log' = sinceUpdate log
  world : WorldFor i j s.world s'.world

/-- Corresponding results. -/
def Levels {β : Type _} (P : Nat → Prop) (own own' : Nat → Option α) (i j : Option κ)
    (x y : Sys α κ W × β) : Prop :=
  y.2 = x.2 ∧ Level P own own' i j x.1 y.1

def LevelE (P : Nat → Prop) (own own' : Nat → Option α) (i j : Option κ) :
    Except Err (Sys α κ W) → Except Err (Sys α κ W) → Prop
  | .ok s, .ok s' => Level P own own' i j s s'
  | .error e, .error e' => e' = e
  | _, _ => False

/-- The arguments of corresponding runs. -/
structure LevelArgs (P : Nat → Prop) (own own' : Nat → Option α) (i j : Option κ)
    (a a' : RunArgs α κ W) : Prop where
  id : a.id = i
  id' : a'.id = j
  skip : a'.skip = a.skip
  esu : SameRecent P own own' a.esu a'.esu
  seq : SameRecent P own own' a.seq a'.seq

/-! ## Conditions -/

theorem elapsed_update {q : TimeScale} (log : List TimeScale) :
    elapsed log environment_state_update q = (sinceUpdate log).count q := rfl

theorem Level.relative (h : Level P own own' i j s s') {q : TimeScale} (hq : q.val < 2) :
    (s'.clock j).getTotalTimesRelative q environment_state_update =
      (s.clock i).getTotalTimesRelative q environment_state_update := by
  obtain ⟨log, log', h1, h2, h3⟩ := h.clock
  rw [Props.clock_elapsed h1 (.inr (by decide)) hq, Props.clock_elapsed h2 (.inr (by decide)) hq, elapsed_update,
    elapsed_update, h3]

theorem Level.totalEq (h : Level P own own' i j s s') {ts : TimeScale} (hts : ts.val ≤ 2) (d : α) :
    s'.total j ts d = s.total i ts d := by
  obtain ⟨f, f', h1, h2, h3⟩ := h.total
  unfold View.total
  rw [h1, h2, h.nodes]
  simp only [h3 ts d hts]

theorem Level.useableEq (h : Level P own own' i j s s') (d : α) (o : Option α) :
    s'.useable j d o = s.useable i d o := by
  obtain ⟨u, h1, h2⟩ := h.useable
  unfold View.useable
  rw [h1, h2, h.nodes]

theorem Level.leaf (h : Level P own own' i j s s') {k : Leaf α κ W} (hk : RecentLeaf k)
    {o o' : Option α} (ho : ∀ d n, k = .everyNCalls d n → o' = o) :
    evalLeaf s'.toView j o' k = evalLeaf s.toView i o k := by
  have hcall : ∀ ts d f, ts.val ≤ 2 → callCount s'.toView j ts d f = callCount s.toView i ts d f := by
    intro ts d f hd; unfold callCount; rw [h.totalEq hd]
  have hrel : ∀ (q ts : TimeScale) f, q.val < 2 → ts = environment_state_update →
      relTime s'.toView j q ts f = relTime s.toView i q ts f := by
    rintro q ts f h1 rfl; unfold relTime; rw [h.relative h1]
  have hfin : ∀ d, isFinished s'.toView j d = isFinished s.toView i d := by
    intro d; unfold isFinished; rw [h.world.finished d]
  cases k with
  | always => rfl
  | never => rfl
  | beforeConsiderationSetExecution n ts => simp only [evalLeaf]; exact hrel _ _ _ (by decide) hk
  | atConsiderationSetExecution n ts => simp only [evalLeaf]; exact hrel _ _ _ (by decide) hk
  | afterConsiderationSetExecution n ts => simp only [evalLeaf]; exact hrel _ _ _ (by decide) hk
  | afterNConsiderationSetExecutions n ts => simp only [evalLeaf]; exact hrel _ _ _ (by decide) hk
  | beforePass n ts => simp only [evalLeaf]; exact hrel _ _ _ (by decide) hk
  | atPass n ts => simp only [evalLeaf]; exact hrel _ _ _ (by decide) hk
  | afterPass n ts => simp only [evalLeaf]; exact hrel _ _ _ (by decide) hk
  | afterNPasses n ts => simp only [evalLeaf]; exact hrel _ _ _ (by decide) hk
  | everyNPasses n ts =>
    have hk : ts = environment_state_update := hk
    subst hk
    simp only [evalLeaf]
    rw [h.relative (by decide)]
  | beforeNCalls d n ts => simp only [evalLeaf]; exact hcall _ _ _ hk
  | atNCalls d n ts => simp only [evalLeaf]; exact hcall _ _ _ hk
  | afterCall d n ts => simp only [evalLeaf]; exact hcall _ _ _ hk
  | afterNCalls d n ts => simp only [evalLeaf]; exact hcall _ _ _ hk
  | afterNCallsCombined ds n ts =>
    have : ∀ ds : List α, sumCalls s'.toView j ts ds = sumCalls s.toView i ts ds := by
      intro ds
      induction ds with
      | nil => rfl
      | cons d ds ih => simp only [sumCalls]; rw [h.totalEq hk, ih]
    simp only [evalLeaf, this ds]
  | everyNCalls d n => simp only [evalLeaf]; rw [ho d n rfl, h.useableEq]
  | allHaveRun ds ts =>
    have : ∀ ds : List α, allHaveRunFunc s'.toView j ts ds = allHaveRunFunc s.toView i ts ds := by
      intro ds
      induction ds with
      | nil => rfl
      | cons d ds ih => simp only [allHaveRunFunc]; rw [h.totalEq hk, ih]
    simp only [evalLeaf, h.nodes, this]
  | whenFinished d => exact hfin d
  | whenFinishedAny ds =>
    have : ∀ ds : List α, finishedAny s'.toView j ds = finishedAny s.toView i ds := by
      intro ds
      induction ds with
      | nil => rfl
      | cons d ds ih => simp only [finishedAny]; rw [hfin d, ih]
    simp only [evalLeaf, h.nodes, this]
  | whenFinishedAll ds =>
    have : ∀ ds : List α, finishedAll s'.toView j ds = finishedAll s.toView i ds := by
      intro ds
      induction ds with
      | nil => rfl
      | cons d ds ih => simp only [finishedAll]; rw [hfin d, ih]
    simp only [evalLeaf, h.nodes, this]
  | threshold d p thr cmp ix at_ rt g =>
    have e : getParameterValue s'.world j d p g = getParameterValue s.world i d p g := by
      cases g with
      | none => exact h.world.attr d p
      | some g => exact h.world.getter g d p
    simp only [evalLeaf, thresholdValue, e]
  | _ => exact hk.elim

/-- Corresponding attributes of condition objects. -/
structure LevelStore (P : Nat → Prop) (own own' : Nat → Option α) (i j : Option κ)
    (st st' : Store α κ) : Prop where
  own : st.owner = own
  own' : st'.owner = own'
  sat : ∀ o, P o → st'.sat o j = st.sat o i

def LevelRes (P : Nat → Prop) (own own' : Nat → Option α) (i j : Option κ)
    (x y : EvalResult α κ) : Prop := y.1 = x.1 ∧ LevelStore P own own' i j x.2 y.2

mutual
theorem Level.eval (h : Level P own own' i j s s') :
    ∀ (c c' : Cond α κ W) (st st' : Store α κ), SameRecent P own own' c c' →
      LevelStore P own own' i j st st' →
      LevelRes P own own' i j (eval s.toView i c st) (eval s'.toView j c' st')
  | .leaf o k, .leaf o' k', st, st', hk, hs => by
    obtain ⟨rfl, h1, h2⟩ := hk
    refine ⟨?_, hs⟩
    show evalLeaf _ _ (st'.owner o') _ = evalLeaf _ _ (st.owner o) _
    rw [hs.own, hs.own']
    exact h.leaf h1 h2
  | .all o cs, .all o' cs', st, st', hk, hs => Level.evalAll h cs cs' st st' hk hs
  | .any o cs, .any o' cs', st, st', hk, hs => Level.evalAny h cs cs' st st' hk hs
  | .not o c, .not o' c', st, st', hk, hs => by
    obtain ⟨k1, k2⟩ := Level.eval h c c' st st' hk hs
    refine ⟨?_, k2⟩
    show notResult _ = notResult _
    rw [k1]
  | .nwhen o c n, .nwhen o' c' n', st, st', hk, hs => by
    obtain ⟨rfl, h1, rfl, h2⟩ := hk
    have k := Level.eval h c c' st st' h2 hs
    simp only [GS.eval]
    rw [hs.sat o' h1]
    split
    · rcases e : GS.eval s.toView i c st with ⟨r, u⟩
      rcases e' : GS.eval s'.toView j c' st' with ⟨r', u'⟩
      rw [e, e'] at k
      obtain ⟨k1, k2⟩ := k
      dsimp only at k1 k2
      subst k1
      rcases r' with x | x
      · exact ⟨rfl, k2⟩
      · cases x
        · exact ⟨rfl, k2⟩
        · refine ⟨rfl, k2.own, k2.own', fun x hx => ?_⟩
          simp only [nwhenResult, Store.bumpSat, and_true, k2.sat x hx]
    · exact ⟨rfl, hs⟩
  | .whileNot .., _, _, _, hk, _ => by simp [SameRecent] at hk
  | .leaf .., .nwhen .., _, _, hk, _ => by simp [SameRecent] at hk
  | .leaf .., .whileNot .., _, _, hk, _ => by simp [SameRecent] at hk
  | .leaf .., .all .., _, _, hk, _ => by simp [SameRecent] at hk
  | .leaf .., .any .., _, _, hk, _ => by simp [SameRecent] at hk
  | .leaf .., .not .., _, _, hk, _ => by simp [SameRecent] at hk
  | .all .., .nwhen .., _, _, hk, _ => by simp [SameRecent] at hk
  | .all .., .whileNot .., _, _, hk, _ => by simp [SameRecent] at hk
  | .all .., .leaf .., _, _, hk, _ => by simp [SameRecent] at hk
  | .all .., .any .., _, _, hk, _ => by simp [SameRecent] at hk
  | .all .., .not .., _, _, hk, _ => by simp [SameRecent] at hk
  | .any .., .nwhen .., _, _, hk, _ => by simp [SameRecent] at hk
  | .any .., .whileNot .., _, _, hk, _ => by simp [SameRecent] at hk
  | .any .., .leaf .., _, _, hk, _ => by simp [SameRecent] at hk
  | .any .., .all .., _, _, hk, _ => by simp [SameRecent] at hk
  | .any .., .not .., _, _, hk, _ => by simp [SameRecent] at hk
  | .not .., .nwhen .., _, _, hk, _ => by simp [SameRecent] at hk
  | .not .., .whileNot .., _, _, hk, _ => by simp [SameRecent] at hk
  | .not .., .leaf .., _, _, hk, _ => by simp [SameRecent] at hk
  | .not .., .all .., _, _, hk, _ => by simp [SameRecent] at hk
  | .not .., .any .., _, _, hk, _ => by simp [SameRecent] at hk
  | .nwhen .., .not .., _, _, hk, _ => by simp [SameRecent] at hk
  | .nwhen .., .whileNot .., _, _, hk, _ => by simp [SameRecent] at hk
  | .nwhen .., .leaf .., _, _, hk, _ => by simp [SameRecent] at hk
  | .nwhen .., .all .., _, _, hk, _ => by simp [SameRecent] at hk
  | .nwhen .., .any .., _, _, hk, _ => by simp [SameRecent] at hk
theorem Level.evalAll (h : Level P own own' i j s s') :
    ∀ (cs cs' : List (Cond α κ W)) (st st' : Store α κ), SameRecents P own own' cs cs' →
      LevelStore P own own' i j st st' →
      LevelRes P own own' i j (evalAll s.toView i cs st) (evalAll s'.toView j cs' st')
  | [], [], _, _, _, hs => ⟨rfl, hs⟩
  | [], _ :: _, _, _, hk, _ => by simp [SameRecents] at hk
  | _ :: _, [], _, _, hk, _ => by simp [SameRecents] at hk
  | c :: cs, c' :: cs', st, st', hk, hs => by
    simp only [SameRecents] at hk
    have k := Level.eval h c c' st st' hk.1 hs
    simp only [GS.evalAll]
    rcases e : GS.eval s.toView i c st with ⟨r, u⟩
    rcases e' : GS.eval s'.toView j c' st' with ⟨r', u'⟩
    rw [e, e'] at k
    obtain ⟨k1, k2⟩ := k
    dsimp only at k1 k2
    subst k1
    rcases r' with x | x
    · exact ⟨rfl, k2⟩
    · cases x
      · exact ⟨rfl, k2⟩
      · exact Level.evalAll h cs cs' u u' hk.2 k2
theorem Level.evalAny (h : Level P own own' i j s s') :
    ∀ (cs cs' : List (Cond α κ W)) (st st' : Store α κ), SameRecents P own own' cs cs' →
      LevelStore P own own' i j st st' →
      LevelRes P own own' i j (evalAny s.toView i cs st) (evalAny s'.toView j cs' st')
  | [], [], _, _, _, hs => ⟨rfl, hs⟩
  | [], _ :: _, _, _, hk, _ => by simp [SameRecents] at hk
  | _ :: _, [], _, _, hk, _ => by simp [SameRecents] at hk
  | c :: cs, c' :: cs', st, st', hk, hs => by
    simp only [SameRecents] at hk
    have k := Level.eval h c c' st st' hk.1 hs
    simp only [GS.evalAny]
    rcases e : GS.eval s.toView i c st with ⟨r, u⟩
    rcases e' : GS.eval s'.toView j c' st' with ⟨r', u'⟩
    rw [e, e'] at k
    obtain ⟨k1, k2⟩ := k
    dsimp only at k1 k2
    subst k1
    rcases r' with x | x
    · exact ⟨rfl, k2⟩
    · cases x
      · exact Level.evalAny h cs cs' u u' hk.2 k2
      · exact ⟨rfl, k2⟩
end

theorem Level.evalCond (h : Level P own own' i j s s') {c c' : Cond α κ W}
    (hc : SameRecent P own own' c c') :
    Levels P own own' i j (s.evalCond i c) (s'.evalCond j c') := by
  obtain ⟨h1, h2⟩ := h.eval c c' s.store s'.store hc ⟨h.own, h.own', h.sat⟩
  exact ⟨h1, h.queue, h.nodes, h.conds, h2.own, h2.own', h2.sat, h.total, h.useable, h.list, h.clock,
    h.world⟩

/-! ## Single operations -/

theorem Level.incrClock (h : Level P own own' i j s s') {ts : TimeScale} (hts : ts ≠ life) :
    LevelE P own own' i j (s.incrClock i ts) (s'.incrClock j ts) := by
  obtain ⟨log, log', h1, h2, h3⟩ := h.clock
  obtain ⟨c, e, k⟩ := h1.incr hts
  obtain ⟨c', e', k'⟩ := h2.incr hts
  unfold Sys.incrClock
  rw [e, e']
  refine ⟨h.queue, h.nodes, h.conds, h.own, h.own', h.sat, h.total, h.useable, h.list,
    ⟨log ++ [ts], log' ++ [ts], ?_, ?_, ?_⟩, h.world⟩
  · simp only [View.clock, Sys.setClock, Dict.get?_set_self]; exact k
  · simp only [View.clock, Sys.setClock, Dict.get?_set_self]; exact k'
  · unfold sinceUpdate at *
    simp only [List.reverse_append, List.reverse_cons, List.reverse_nil, List.nil_append,
      List.singleton_append, List.takeWhile_cons]
    rw [h3]

theorem Level.resetTotal (h : Level P own own' i j s s') (ts : TimeScale) :
    LevelE P own own' i j (s.resetTotal ts i) (s'.resetTotal ts j) := by
  obtain ⟨f, f', h1, h2, h3⟩ := h.total
  unfold Sys.resetTotal
  rw [h1, h2]
  refine ⟨h.queue, h.nodes, h.conds, h.own, h.own', h.sat,
    ⟨_, _, Dict.get?_set_self .., Dict.get?_set_self .., ?_⟩, h.useable, h.list, h.clock, h.world⟩
  intro t n ht
  simp only [h3 t n ht]

theorem Level.fire (h : Level P own own' i j s s') (n : α) :
    LevelE P own own' i j (s.fire i n) (s'.fire j n) := by
  obtain ⟨f, f', h1, h2, h3⟩ := h.total
  obtain ⟨u, g1, g2⟩ := h.useable
  unfold Sys.fire
  rw [h1, h2, h.nodes, g1, g2]
  dsimp only
  split
  · refine ⟨h.queue, rfl, h.conds, h.own, h.own', h.sat,
      ⟨_, _, Dict.get?_set_self .., Dict.get?_set_self .., ?_⟩,
      ⟨_, Dict.get?_set_self .., Dict.get?_set_self ..⟩, h.list, h.clock, h.world⟩
    intro t m ht
    simp only [h3 t m ht]
  · exact rfl

theorem Level.record (h : Level P own own' i j s s') (set : List α) :
    Levels P own own' i j (s.record i false set) (s'.record j false set) := by
  obtain ⟨⟨l, h1⟩, l', h2⟩ := h.list
  unfold Sys.record
  rw [h1, h2]
  exact ⟨rfl, h.queue, h.nodes, h.conds, h.own, h.own', h.sat, h.total, h.useable,
    ⟨⟨_, Dict.get?_set_self ..⟩, _, Dict.get?_set_self ..⟩, h.clock, h.world⟩

theorem Level.continues (h : Level P own own' i j s s') (ha : LevelArgs P own own' i j a a') :
    Levels P own own' i j (s.continues a) (s'.continues a') := by
  have h1 := h.evalCond ha.esu
  unfold Sys.continues
  rw [ha.id, ha.id']
  rcases e : s.evalCond i a.esu with ⟨t, r⟩
  rcases e' : s'.evalCond j a'.esu with ⟨t', r'⟩
  rw [e, e'] at h1
  obtain ⟨h2, h3⟩ := h1
  dsimp only at h2 h3
  subst h2
  rcases r' with x | x
  · exact ⟨rfl, h3⟩
  · cases x
    · have h4 := h3.evalCond ha.seq
      dsimp only
      rcases f : t.evalCond i a.seq with ⟨u, q⟩
      rcases f' : t'.evalCond j a'.seq with ⟨u', q'⟩
      rw [f, f'] at h4
      obtain ⟨h5, h6⟩ := h4
      dsimp only at h5 h6
      subst h5
      rcases q' with x | x <;> exact ⟨rfl, h6⟩
    · exact ⟨rfl, h3⟩

theorem Level.considerNode (h : Level P own own' i j s s') (n : α) :
    Levels P own own' i j (s.considerNode i n) (s'.considerNode j n) := by
  unfold Sys.considerNode
  rcases h.conds n with ⟨h1, h2⟩ | ⟨c, c', h1, h2, h3⟩
  · rw [h1, h2]; exact ⟨rfl, h⟩
  · rw [h1, h2]
    dsimp only
    have k := h.evalCond h3
    rcases e : s.evalCond i c with ⟨t, r⟩
    rcases e' : s'.evalCond j c' with ⟨t', r'⟩
    rw [e, e'] at k
    obtain ⟨k1, k2⟩ := k
    dsimp only at k1 k2
    subst k1
    rcases r' with x | x
    · exact ⟨rfl, k2⟩
    · cases x
      · exact ⟨rfl, k2⟩
      · have k3 := k2.fire n
        dsimp only
        rcases f : t.fire i n with x | u <;> rcases f' : t'.fire j n with x' | u' <;>
          rw [f, f'] at k3
        · cases k3; exact ⟨rfl, k2⟩
        · exact k3.elim
        · exact k3.elim
        · exact ⟨rfl, k3⟩

theorem Level.endPass (h : Level P own own' i j s s') (ha : LevelArgs P own own' i j a a') (changed : Bool) :
    Levels P own own' i j (s.endPass a false changed) (s'.endPass a' false changed) := by
  unfold Sys.endPass
  rw [ha.id, ha.id']
  split
  · have k := h.record []
    rcases e : s.record i false [] with ⟨t, r⟩
    rcases e' : s'.record j false [] with ⟨t', r'⟩
    rw [e, e'] at k
    obtain ⟨k1, k2⟩ := k
    dsimp only at k1 k2
    subst k1
    rcases r' with _ | x <;> exact ⟨rfl, k2⟩
  · have k3 := h.incrClock (ts := .pass) (by decide)
    rcases f : s.incrClock i .pass with x | u <;> rcases f' : s'.incrClock j .pass with x' | u' <;>
      rw [f, f'] at k3
    · cases k3; exact ⟨rfl, h⟩
    · exact k3.elim
    · exact k3.elim
    · exact ⟨rfl, k3⟩

theorem Level.endChoice (h : Level P own own' i j s s') (ha : LevelArgs P own own' i j a a') (c : Choice α) :
    Levels P own own' i j (s.endChoice a false c) (s'.endChoice a' false c) := by
  unfold Sys.endChoice
  rw [ha.id, ha.id']
  dsimp only
  split
  · have k := h.record c.exec
    rcases e : s.record i false c.exec with ⟨t, r⟩
    rcases e' : s'.record j false c.exec with ⟨t', r'⟩
    rw [e, e'] at k
    obtain ⟨k1, k2⟩ := k
    dsimp only at k1 k2
    subst k1
    rcases r' with _ | x <;> exact ⟨rfl, k2⟩
  · exact ⟨rfl, h⟩

theorem Level.choose (h : Level P own own' i j s s') (ha : LevelArgs P own own' i j a a') (c : Choice α) :
    Levels P own own' i j (s.choose a false c) (s'.choose a' false c) := by
  unfold Sys.choose
  split
  · split
    · exact ⟨rfl, h⟩
    · exact h.endChoice ha c
  · rename_i n ns _
    split
    · exact ⟨rfl, h⟩
    · rw [ha.id, ha.id']
      have k := h.considerNode n
      rcases e : s.considerNode i n with ⟨t, r⟩
      rcases e' : s'.considerNode j n with ⟨t', r'⟩
      rw [e, e'] at k
      obtain ⟨k1, k2⟩ := k
      dsimp only at k1 k2
      subst k1
      rcases r' with x | x
      · exact ⟨rfl, k2⟩
      · cases x <;> exact ⟨rfl, k2⟩

theorem Level.finish (h : Level P own own' i j s s') (ha : LevelArgs P own own' i j a a') :
    Levels P own own' i j (s.finish a) (s'.finish a') := by
  have k : LevelE P own own' i j (if a.skip then .ok s else s.incrClock i .environment_state_update)
      (if a.skip then .ok s' else s'.incrClock j .environment_state_update) := by
    split
    · exact h
    · exact h.incrClock (by decide)
  unfold Sys.finish
  rw [ha.id, ha.id', ha.skip]
  rcases f : (if a.skip then .ok s else s.incrClock i .environment_state_update :
      Except Err (Sys α κ W)) with x | u <;>
    rcases f' : (if a.skip then .ok s' else s'.incrClock j .environment_state_update :
      Except Err (Sys α κ W)) with x' | u' <;>
      rw [f, f'] at k
  · cases k; exact ⟨rfl, h⟩
  · exact k.elim
  · exact k.elim
  · dsimp only
    have k1 := Level.evalCond k ha.seq
    rcases e : u.evalCond i a.seq with ⟨t, r⟩
    rcases e' : u'.evalCond j a'.seq with ⟨t', r'⟩
    rw [e, e'] at k1
    obtain ⟨k1, k2⟩ := k1
    dsimp only at k1 k2
    subst k1
    rcases r' with x | x <;> exact ⟨rfl, k2⟩

theorem Level.step (h : Level P own own' i j s s') (ha : LevelArgs P own own' i j a a') (pc : PC α) :
    Levels P own own' i j (s.step a false pc) (s'.step a' false pc) := by
  cases pc with
  | outer =>
    have k := h.continues ha
    simp only [Sys.step]
    rw [ha.id, ha.id']
    rcases e : s.continues a with ⟨t, r⟩
    rcases e' : s'.continues a' with ⟨t', r'⟩
    rw [e, e'] at k
    obtain ⟨k1, k2⟩ := k
    dsimp only at k1 k2
    subst k1
    rcases r' with x | x
    · exact ⟨rfl, k2⟩
    · cases x
      · exact k2.finish ha
      · have k3 := k2.resetTotal .pass
        dsimp only
        rcases f : t.resetTotal .pass i with x | u <;>
          rcases f' : t'.resetTotal .pass j with x' | u' <;> rw [f, f'] at k3
        · cases k3; exact ⟨rfl, k2⟩
        · exact k3.elim
        · exact k3.elim
        · exact ⟨rfl, k3⟩
  | inner idx changed =>
    have hq : s'.queue = s.queue := h.queue
    simp only [Sys.step]
    rw [hq]
    cases s.queue[idx]? with
    | none => exact h.endPass ha changed
    | some layer =>
      dsimp only
      have k := h.continues ha
      rcases e : s.continues a with ⟨t, r⟩
      rcases e' : s'.continues a' with ⟨t', r'⟩
      rw [e, e'] at k
      obtain ⟨k1, k2⟩ := k
      dsimp only at k1 k2
      subst k1
      rcases r' with x | x
      · exact ⟨rfl, k2⟩
      · cases x
        · exact k2.endPass ha changed
        · exact ⟨rfl, k2⟩
  | choosing c => exact h.choose ha c
  | yielded idx changed =>
    simp only [Sys.step]
    rw [ha.id, ha.id']
    have k3 := h.incrClock (ts := .consideration_set_execution) (by decide)
    rcases f : s.incrClock i .consideration_set_execution with x | u <;>
      rcases f' : s'.incrClock j .consideration_set_execution with x' | u' <;> rw [f, f'] at k3
    · cases k3; exact ⟨rfl, h⟩
    · exact k3.elim
    · exact k3.elim
    · exact ⟨rfl, k3⟩
  | yieldedEmpty =>
    simp only [Sys.step]
    rw [ha.id, ha.id']
    have k3 := h.incrClock (ts := .consideration_set_execution) (by decide)
    rcases f : s.incrClock i .consideration_set_execution with x | u <;>
      rcases f' : s'.incrClock j .consideration_set_execution with x' | u' <;> rw [f, f'] at k3
    · cases k3; exact ⟨rfl, h⟩
    · exact k3.elim
    · exact k3.elim
    · dsimp only
      have k4 := Level.incrClock k3 (ts := .pass) (by decide)
      rcases g : u.incrClock i .pass with x | y <;>
        rcases g' : u'.incrClock j .pass with x' | y' <;> rw [g, g'] at k4
      · cases k4; exact ⟨rfl, k3⟩
      · exact k4.elim
      · exact k4.elim
      · exact ⟨rfl, k4⟩
  | returned => exact ⟨rfl, h⟩
  | raised e => exact ⟨rfl, h⟩

end GS
