import Verif.Spec.Reference
import Verif.NPasses
import Verif.OrderStart
import Verif.AbsRepeat
/-!
# The reference scheduler: conditions
-/

set_option linter.unusedSectionVars false

namespace GS
open Spec TimeScale
variable {α κ W : Type _} [DecidableEq α] [DecidableEq κ]

theorem not_mem_since (n : α) (l : List α) : n ∉ since n l := by
  intro h
  unfold since afterLast at h
  have key : ∀ l : List α, n ∉ l.takeWhile fun x => !decide (x = n) := by
    intro l
    induction l with
    | nil => simp
    | cons x l ih =>
      rw [List.takeWhile_cons]
      split
      · rename_i hx
        intro hm
        rcases List.mem_cons.1 hm with rfl | hm
        · simp at hx
        · exact ih hm
      · simp
  exact key _ (List.mem_reverse.1 h)

/-! ## What the scheduler knows of the past -/

/-- The attributes of the scheduler agree with the past. `own` is the owner of the conditions
that are to be evaluated. -/
structure Knows (v : View α κ W) (id : Option κ) (e : Around α κ W)
    (own : Option α) (p : Past α) : Prop where
  total : ∃ f, Dict.get? v.countsTotal id = some f ∧ ∀ ts n,
    pass.val < ts.val ∨ (ts = pass ∧ own.isSome = true) → f ts n = p.calls ts n
  useable : ∃ u, Dict.get? v.countsUseable id = some u ∧ ∀ d n, u d n = p.callsSince n d
  clock : ∃ log, Shows (v.clock id) log ∧
    (∀ ts, pass.val < ts.val → elapsed log ts pass = p.passes ts ∧
      elapsed log ts consideration_set_execution = p.sets ts) ∧
    (∀ ts, environment_state_update.val < ts.val →
      elapsed log ts environment_state_update = p.runs.length) ∧
    log.count environment_sequence = 0
  list : Dict.get? v.execList id = some p.all
  fin : ∀ n b, v.world.finished n id = .ok b → e.finished p.inRun n = b
  number : ∀ n x is g r, thresholdValue v.world id n x is g = .ok r → e.number p.inRun n x is g = r
  asks : ∀ f o b, OfWorld f → f v id o = .ok b → e.asks p.inRun f = b
  nodes : e.nodes = v.nodes
  place : ∀ i n, At v.queue i n → e.place n = i
  exact : e.exact = v.inExactTimeMode
  tick : (v.clock id).time.absolute_interval = e.tick
  time : (v.clock id).time.absolute = e.time p.inRun

section
variable {v : View α κ W} {id : Option κ} {ar : Around α κ W} {own : Option α} {p : Past α}

theorem recorded_of {ts : TimeScale} (h : pass.val < ts.val) : Props.Recorded ts := by
  revert h; cases ts <;> simp [Props.Recorded, val]

theorem Knows.pass (h : Knows v id ar own p) {ts : TimeScale} (hts : TimeScale.pass.val < ts.val) :
    (v.clock id).getTotalTimesRelative .pass ts = .ok (p.passes ts) := by
  obtain ⟨log, h1, h2, _⟩ := h.clock
  rw [Props.clock_elapsed h1 (recorded_of hts) hts, (h2 ts hts).1]

theorem Knows.sets (h : Knows v id ar own p) {ts : TimeScale} (hts : TimeScale.pass.val < ts.val) :
    (v.clock id).getTotalTimesRelative .consideration_set_execution ts = .ok (p.sets ts) := by
  obtain ⟨log, h1, h2, _⟩ := h.clock
  rw [Props.clock_elapsed h1 (recorded_of hts) (Nat.lt_trans (by decide) hts), (h2 ts hts).2]

theorem Knows.updates (h : Knows v id ar own p) {ts : TimeScale}
    (hts : environment_state_update.val < ts.val) :
    (v.clock id).getTotalTimesRelative .environment_state_update ts = .ok p.runs.length := by
  obtain ⟨log, h1, _, h2, _⟩ := h.clock
  rw [Props.clock_elapsed h1 (recorded_of (Nat.lt_trans (by decide) hts)) hts, h2 ts hts]

theorem Knows.calls (h : Knows v id ar own p) {ts : TimeScale} {d : α} {k : Nat}
    (hts : TimeScale.pass.val < ts.val ∨ (ts = TimeScale.pass ∧ own.isSome = true))
    (e : v.total id ts d = .ok k) : k = p.calls ts d := by
  obtain ⟨f, h1, h2⟩ := h.total
  unfold View.total at e
  rw [h1] at e
  dsimp only at e
  split at e
  · injection e with e; rw [← e, h2 ts d hts]
  · cases e

theorem Knows.since (h : Knows v id ar own p) {n d : α} {k : Nat}
    (e : v.useable id d (some n) = .ok k) : k = p.callsSince n d := by
  obtain ⟨u, h1, h2⟩ := h.useable
  unfold View.useable at e
  rw [h1] at e
  dsimp only at e
  split at e
  · split at e
    · injection e with e; rw [← e, h2 d n]
    · cases e
  · cases e

theorem Knows.sum (h : Knows v id ar own p) {ts : TimeScale}
    (hts : TimeScale.pass.val < ts.val ∨ (ts = TimeScale.pass ∧ own.isSome = true)) :
    ∀ (ds : List α) (k : Nat), sumCalls v id ts ds = .ok k → k = (ds.map (p.calls ts)).sum
  | [], k, e => by simp only [sumCalls] at e; injection e with e; simp [← e]
  | d :: ds, k, e => by
    simp only [sumCalls] at e
    rcases e1 : v.total id ts d with x | n
    · rw [e1] at e; cases e
    · rw [e1] at e
      dsimp only at e
      rcases e2 : sumCalls v id ts ds with x | m
      · rw [e2] at e; cases e
      · rw [e2] at e
        dsimp only at e
        injection e with e
        rw [← e, h.calls hts e1, h.sum hts ds m e2]; simp

theorem Knows.allRun (h : Knows v id ar own p) {ts : TimeScale}
    (hts : TimeScale.pass.val < ts.val ∨ (ts = TimeScale.pass ∧ own.isSome = true)) :
    ∀ (ds : List α) (b : Bool), allHaveRunFunc v id ts ds = .ok b →
      decide (∀ d ∈ ds, 1 ≤ p.calls ts d) = b
  | [], b, e => by simp only [allHaveRunFunc] at e; simpa using e
  | d :: ds, b, e => by
    simp only [allHaveRunFunc] at e
    rcases e1 : v.total id ts d with x | n
    · rw [e1] at e; cases x <;> cases e
    · rw [e1] at e
      dsimp only at e
      have hk := h.calls hts e1
      split at e
      · rename_i hlt
        injection e with e
        rw [← e]
        simp only [decide_eq_false_iff_not]
        intro hall
        have := hall d (by simp)
        omega
      · rename_i hge
        rw [← h.allRun hts ds b e]
        have h1 : 1 ≤ p.calls ts d := by omega
        simp [h1]

theorem Knows.finished (h : Knows v id ar own p) {d : α} {b : Bool}
    (e : isFinished v id d = .ok b) : ar.finished p.inRun d = b := by
  unfold isFinished at e
  split at e
  · cases e
  · exact h.fin d b e

theorem Knows.finishedAny (h : Knows v id ar own p) :
    ∀ (ds : List α) (b : Bool), finishedAny v id ds = .ok b → ds.any (ar.finished p.inRun) = b
  | [], b, e => by simp only [GS.finishedAny] at e; simpa using e
  | d :: ds, b, e => by
    simp only [GS.finishedAny] at e
    rcases e1 : isFinished v id d with x | y
    · rw [e1] at e; cases e
    · rw [e1] at e
      have := h.finished e1
      cases y
      · dsimp only at e
        simp [this, h.finishedAny ds b e]
      · injection e with e
        simp [this, ← e]

theorem Knows.finishedAll (h : Knows v id ar own p) :
    ∀ (ds : List α) (b : Bool), finishedAll v id ds = .ok b → ds.all (ar.finished p.inRun) = b
  | [], b, e => by simp only [GS.finishedAll] at e; simpa using e
  | d :: ds, b, e => by
    simp only [GS.finishedAll] at e
    rcases e1 : isFinished v id d with x | y
    · rw [e1] at e; cases e
    · rw [e1] at e
      have := h.finished e1
      cases y
      · injection e with e
        simp [this, ← e]
      · dsimp only at e
        simp [this, h.finishedAll ds b e]

theorem Knows.justRan (h : Knows v id ar own p) {d : α} {b : Bool}
    (e : justRanFunc v id d = .ok b) : p.justRan d = b := by
  unfold justRanFunc at e
  unfold Dict.get at e
  rw [h.list] at e
  dsimp only at e
  unfold Past.justRan
  rcases hl : p.all.getLast? with _ | x
  · have : p.all = [] := List.getLast?_eq_none_iff.1 hl
    rw [this] at e
    simp [pyIndex] at e
  · obtain ⟨l, hl'⟩ := List.getLast?_eq_some_iff.1 hl
    rw [hl'] at e
    have : pyIndex (l ++ [x]) (-1) = .ok x := by
      unfold pyIndex
      have h1 : ((l.length : Int) + 1 + -1).toNat = l.length := by omega
      have h2 : (1 : Int) ≤ (l.length : Int) + 1 := by omega
      simp [h1, h2, orIndexError]
    rw [this] at e
    injection e

theorem Knows.sequences (h : Knows v id ar own p) : (v.clock id).time.at_ environment_sequence = 0 := by
  obtain ⟨log, h1, _, _, h2⟩ := h.clock
  rw [← h2]
  obtain ⟨hn, _, h3⟩ := shows_iff.1 h1
  rw [h3, field_eq_count]
  intro e he
  have := hn e he
  revert this; cases e <;> simp [val]

theorem layerOffset_none {q : List (List α)} {n : α} {u : Rat} (hn : ∀ i, ¬ At q i n) :
    layerOffset (some n) u q = none := by
  unfold layerOffset
  have : ∀ (l : List (List α × Nat)), (∀ x ∈ l, n ∉ x.1) → l.foldl (fun off p =>
      match (some n : Option α) with
      | some o => if o ∈ p.1 then some ((p.2 : Rat) * u) else off
      | none => off) none = none := by
    intro l hl
    induction l with
    | nil => rfl
    | cons x l ih =>
      rw [List.foldl_cons]
      dsimp only
      rw [if_neg (hl x (by simp))]
      exact ih fun y hy => hl y (by simp [hy])
  refine this _ fun x hx hnx => ?_
  obtain ⟨y, i⟩ := x
  exact hn i ⟨y, (List.mem_zipIdx_iff_getElem?.1 hx), hnx⟩

theorem whole_iff {x r : Rat} (hr : r ≠ 0) : whole (x / r) = decide (ratMod x r = 0) := by
  unfold whole ratMod
  refine decide_eq_decide.2 ?_
  have h1 : r * (x / r) = x := by
    rw [Rat.mul_comm]; exact Rat.div_mul_cancel hr
  constructor
  · intro h
    rw [h, h1, Rat.sub_self]
  · intro h
    have h2 : r * ((x / r).floor : Rat) = r * (x / r) := by rw [h1]; grind
    have h3 := congrArg (fun y => r⁻¹ * y) h2
    simpa [← Rat.mul_assoc, Rat.inv_mul_cancel _ hr] using h3

theorem Knows.interval (h : Knows v id ar own p) {r b f : Option Qty} {si ei : Bool}
    (hk : r = none ∨ own.isSome = true) {o : Option α}
    (ho : UsesOwner (.timeInterval r b f si ei : Leaf α κ W) → o = own) {x : Bool}
    (e : evalLeaf v id o (.timeInterval r b f si ei) = .ok x) :
    holdsLeaf ar own p (.timeInterval r b f si ei : Leaf α κ W) = x := by
  simp only [evalLeaf, timeIntervalFunc, h.time, h.tick] at e
  simp only [holdsLeaf, inInterval]
  cases r with
  | none =>
    simp only [repeatOk] at e
    injection e with e
  | some r =>
    have ho := ho trivial
    subst ho
    obtain ⟨n, rfl⟩ : ∃ n, o = some n := by
      rcases hk with hk | hk
      · cases hk
      · exact Option.isSome_iff_exists.1 hk
    have key : ∀ off y, repeatOk (ar.time p.inRun) off (some r) = .ok y → ∃ z, off = some z ∧
        y = whole ((ar.time p.inRun - z) / r.val) := by
      intro off y hy
      unfold repeatOk at hy
      cases off with
      | none => cases hy
      | some z =>
        refine ⟨z, rfl, ?_⟩
        dsimp only at hy
        split at hy
        · cases hy
        · rename_i hr
          injection hy with hy
          rw [whole_iff hr, ← hy]
    have hplace : ∀ z, layerOffset (some n) ar.tick v.queue = some z → z = ar.place n * ar.tick := by
      intro z hz
      by_cases hat : ∃ i, At v.queue i n
      · obtain ⟨i, hi⟩ := hat
        rw [layerOffset_at _ hi fun j hj => by rw [← h.place i n hi, h.place j n hj]] at hz
        injection hz with hz
        rw [← hz, h.place i n hi]
      · rw [layerOffset_none fun i hi => hat ⟨i, hi⟩] at hz
        cases hz
    split at e
    · cases e
    · rename_i y hy
      injection e with e
      obtain ⟨z, hz, hy⟩ := key _ _ hy
      have : z = (match (some n : Option α), b with
        | some n, some x => if ar.exact then x.val else ar.place n * ar.tick
        | some n, none => ar.place n * ar.tick
        | none, _ => 0) := by
        cases b with
        | none => exact hplace z hz
        | some b =>
          dsimp only at hz ⊢
          rw [h.exact]
          split at hz
          · rename_i hx
            rw [if_pos hx]; injection hz with hz; exact hz.symm
          · rename_i hx
            rw [if_neg hx]; exact hplace z hz
      rw [← e, hy, this]
      cases b <;> cases f <;> rfl

theorem Knows.leaf (h : Knows v id ar own p) {k : Leaf α κ W} (hk : DescribedLeaf own k)
    {o : Option α} (ho : UsesOwner k → o = own) {b : Bool}
    (e : evalLeaf v id o k = .ok b) : holdsLeaf ar own p k = b := by
  have hcall : ∀ (ts : TimeScale) (d : α) (f : Int → Bool),
      TimeScale.pass.val < ts.val ∨ (ts = TimeScale.pass ∧ own.isSome = true) →
      callCount v id ts d f = .ok b → f (p.calls ts d) = b := by
    intro ts d f hts e
    unfold callCount at e
    split at e
    · rename_i n hn
      injection e with e
      rw [← h.calls hts hn, e]
    · cases e
  have hpass : ∀ (ts : TimeScale) (f : Int → Bool), TimeScale.pass.val < ts.val →
      relTime v id TimeScale.pass ts f = .ok b → f (p.passes ts) = b := by
    intro ts f hts e
    unfold relTime at e
    rw [h.pass hts] at e
    injection e
  have hsets : ∀ (ts : TimeScale) (f : Int → Bool), TimeScale.pass.val < ts.val →
      relTime v id consideration_set_execution ts f = .ok b → f (p.sets ts) = b := by
    intro ts f hts e
    unfold relTime at e
    rw [h.sets hts] at e
    injection e
  have hup : ∀ (ts : TimeScale) (f : Int → Bool), environment_state_update.val < ts.val →
      relTime v id environment_state_update ts f = .ok b → f p.runs.length = b := by
    intro ts f hts e
    unfold relTime at e
    rw [h.updates hts] at e
    injection e
  cases k with
  | func f => simp only [evalLeaf] at e; exact h.asks f _ b hk e
  | always => simp only [evalLeaf] at e; injection e
  | never => simp only [evalLeaf] at e; injection e
  | beforeConsiderationSetExecution n ts => simp only [evalLeaf] at e; exact hsets ts _ hk e
  | atConsiderationSetExecution n ts => simp only [evalLeaf] at e; exact hsets ts _ hk e
  | afterConsiderationSetExecution n ts => simp only [evalLeaf] at e; exact hsets ts _ hk e
  | afterNConsiderationSetExecutions n ts => simp only [evalLeaf] at e; exact hsets ts _ hk e
  | beforePass n ts => simp only [evalLeaf] at e; exact hpass ts _ hk e
  | atPass n ts => simp only [evalLeaf] at e; exact hpass ts _ hk e
  | afterPass n ts => simp only [evalLeaf] at e; exact hpass ts _ hk e
  | afterNPasses n ts => simp only [evalLeaf] at e; exact hpass ts _ hk e
  | everyNPasses n ts =>
    simp only [evalLeaf] at e
    rw [h.pass hk] at e
    dsimp only at e
    split at e
    · cases e
    · injection e with e
      rw [← e]
      simp only [holdsLeaf]
      exact decide_eq_decide.2 Int.dvd_iff_fmod_eq_zero
  | beforeEnvironmentStateUpdate n ts => simp only [evalLeaf] at e; exact hup ts _ hk e
  | atEnvironmentStateUpdate n ts => simp only [evalLeaf] at e; exact hup ts _ hk e
  | afterEnvironmentStateUpdate n ts => simp only [evalLeaf] at e; exact hup ts _ hk e
  | afterNEnvironmentStateUpdates n ts => simp only [evalLeaf] at e; exact hup ts _ hk e
  | beforeNCalls d n ts => simp only [evalLeaf] at e; exact hcall ts d _ hk e
  | atNCalls d n ts => simp only [evalLeaf] at e; exact hcall ts d _ hk e
  | afterCall d n ts => simp only [evalLeaf] at e; exact hcall ts d _ hk e
  | afterNCalls d n ts => simp only [evalLeaf] at e; exact hcall ts d _ hk e
  | afterNCallsCombined ds n ts =>
    cases n with
    | none => cases e
    | some n =>
      simp only [evalLeaf] at e
      rcases e1 : sumCalls v id ts ds with x | m
      · rw [e1] at e; cases e
      · rw [e1] at e
        injection e with e
        rw [h.sum hk ds m e1] at e
        exact e
  | everyNCalls d n =>
    obtain ⟨m, hm⟩ := Option.isSome_iff_exists.1 hk
    simp only [evalLeaf] at e
    rw [ho trivial, hm] at e
    rcases e1 : v.useable id d (some m) with x | k
    · rw [e1] at e; cases e
    · rw [e1] at e
      injection e with e
      rw [h.since e1] at e
      simp only [holdsLeaf, hm]
      exact e
  | justRan d => exact h.justRan e
  | allHaveRun ds ts =>
    simp only [evalLeaf] at e
    simp only [holdsLeaf, h.nodes]; exact h.allRun hk _ _ e
  | whenFinished d => exact h.finished e
  | whenFinishedAny ds =>
    simp only [evalLeaf] at e
    simp only [holdsLeaf, h.nodes]; exact h.finishedAny _ _ e
  | whenFinishedAll ds =>
    simp only [evalLeaf] at e
    simp only [holdsLeaf, h.nodes]; exact h.finishedAll _ _ e
  | threshold d x thr cmp is atol rtol g =>
    simp only [evalLeaf] at e
    split at e
    · cases e
    · rename_i r hr
      injection e with e
      simp only [holdsLeaf]
      rw [h.number _ _ _ _ _ hr, ← e]
      cases cmp <;> simp [compares, thresholdFunc, isClose]
  | timeTermination t incl =>
    simp only [evalLeaf] at e
    simp only [holdsLeaf, ← h.time]
    cases incl <;> (simp only [Bool.false_eq_true, if_true, if_false] at e ⊢; injection e)
  | timeInterval r b f si ei => exact h.interval hk ho e
  | atEnvironmentSequence n =>
    simp only [evalLeaf, h.sequences] at e
    injection e
  | afterEnvironmentSequence n =>
    simp only [evalLeaf, h.sequences] at e
    injection e
  | afterNEnvironmentSequences n =>
    simp only [evalLeaf, h.sequences] at e
    injection e

/-- The owners of objects that existed before. -/
def SameOwners (st0 st : Store α κ) : Prop := ∀ o, o < st0.fresh → st.owner o = st0.owner o

mutual
theorem Knows.eval (h : Knows v id ar own p) {st0 st : Store α κ} (hst : SameOwners st0 st) :
    ∀ (c : Cond α κ W), Described st0 own c → (GS.eval v id c st).2 = st ∧
      ∀ b, (GS.eval v id c st).1 = .ok b → holds ar own p c = b
  | .leaf o k, hc => by
    refine ⟨rfl, fun b e => ?_⟩
    cases hc with
    | leaf hk ho =>
      refine h.leaf hk (o := st.owner o) (fun hkk => ?_) e
      obtain ⟨h1, h2⟩ := ho hkk
      rw [hst o h1, h2]
  | .all o cs, hc => by
    cases hc with
    | all hcs => exact Knows.evalAll h hst cs hcs
  | .any o cs, hc => by
    cases hc with
    | any hcs => exact Knows.evalAny h hst cs hcs
  | .not o c, hc => by
    cases hc with
    | not hc =>
      obtain ⟨h1, h2⟩ := Knows.eval h hst c hc
      refine ⟨h1, fun b e => ?_⟩
      simp only [GS.eval] at e
      rcases e1 : (GS.eval v id c st).1 with x | y
      · rw [e1] at e; cases e
      · rw [e1] at e
        injection e with e
        simp only [holds]
        rw [h2 y e1, e]
  | .whileNot o f, hc => by
    cases hc with
    | whileNot hf =>
      refine ⟨rfl, fun b e => ?_⟩
      simp only [GS.eval] at e
      rcases e1 : f v id (st.owner o) with x | y
      · rw [e1] at e; cases e
      · rw [e1] at e
        injection e with e
        simp only [holds]
        rw [h.asks f _ y hf e1, e]
  | .nwhen o c n, hc => by cases hc
theorem Knows.evalAll (h : Knows v id ar own p) {st0 st : Store α κ} (hst : SameOwners st0 st) :
    ∀ (cs : List (Cond α κ W)), (∀ c ∈ cs, Described st0 own c) → (GS.evalAll v id cs st).2 = st ∧
      ∀ b, (GS.evalAll v id cs st).1 = .ok b → holdsAll ar own p cs = b
  | [], _ => ⟨rfl, fun b e => by simp only [GS.evalAll] at e; injection e⟩
  | c :: cs, hc => by
    obtain ⟨h1, h2⟩ := Knows.eval h hst c (hc c (by simp))
    have ih := Knows.evalAll h hst cs fun c' h' => hc c' (by simp [h'])
    simp only [GS.evalAll, holdsAll]
    rcases e1 : GS.eval v id c st with ⟨r, st'⟩
    rw [e1] at h1 h2
    dsimp only at h1
    subst h1
    rcases r with x | y
    · exact ⟨rfl, fun b e => by cases e⟩
    · have := h2 y rfl
      rw [this]
      cases y
      · exact ⟨rfl, fun b e => by injection e⟩
      · simpa using ih
theorem Knows.evalAny (h : Knows v id ar own p) {st0 st : Store α κ} (hst : SameOwners st0 st) :
    ∀ (cs : List (Cond α κ W)), (∀ c ∈ cs, Described st0 own c) → (GS.evalAny v id cs st).2 = st ∧
      ∀ b, (GS.evalAny v id cs st).1 = .ok b → holdsAny ar own p cs = b
  | [], _ => ⟨rfl, fun b e => by simp only [GS.evalAny] at e; injection e⟩
  | c :: cs, hc => by
    obtain ⟨h1, h2⟩ := Knows.eval h hst c (hc c (by simp))
    have ih := Knows.evalAny h hst cs fun c' h' => hc c' (by simp [h'])
    simp only [GS.evalAny, holdsAny]
    rcases e1 : GS.eval v id c st with ⟨r, st'⟩
    rw [e1] at h1 h2
    dsimp only at h1
    subst h1
    rcases r with x | y
    · exact ⟨rfl, fun b e => by cases e⟩
    · have := h2 y rfl
      rw [this]
      cases y
      · simpa using ih
      · exact ⟨rfl, fun b e => by injection e⟩
end

end

end GS
