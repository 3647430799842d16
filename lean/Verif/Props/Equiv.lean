import Verif.EquivLaws
import Verif.Props.Demo
/-!
# C70: conditions that can replace each other
-/

set_option linter.unusedSectionVars false

namespace GS.Props
open Spec
variable {α κ W : Type _} [DecidableEq α] [DecidableEq κ]
variable {a a' : RunArgs α κ W} {abs : Bool} {s0 s0' : Sys α κ W}
variable {b b' : Store α κ} {c c' d d' : Cond α κ W} {cs ds : List (Cond α κ W)}

theorem rewritten_symm (h : Rewritten s0 s0' a a') : Rewritten s0' s0 a' a := by
  have flip : ∀ {x y : Dict α (Cond α κ W)}, Pairwise2 (Interchangeable s0.store s0'.store) x y →
      Pairwise2 (Interchangeable s0'.store s0.store) y x := by
    intro x y k
    induction k with
    | nil => exact .nil
    | cons k _ ih => exact .cons k.symm ih
  have flipL : ∀ {x y : List (Cond α κ W)}, Listwise (Interchangeable s0.store s0'.store) x y →
      Listwise (Interchangeable s0'.store s0.store) y x := by
    intro x y k
    induction k with
    | nil => exact .nil
    | cons k _ ih => exact .cons k.symm ih
  exact ⟨h.view.symm, h.defaultUnit.symm, h.fresh.symm, h.sat.symm, flip h.conds, h.id.symm,
    h.base.symm, h.skip.symm, h.esu.symm, h.seq.symm, flipL h.others⟩

theorem rewritten_follow (h : Rewritten s0 s0' a a') (w : List (List α) → World α κ W)
    {hist : History α κ W} {s : Sys α κ W} {pc : PC α} (hr : Scripted w a s0 abs hist s pc) :
    ∃ hist' s' b b', Scripted w a' s0' abs hist' s' pc ∧ hist'.map Entry.ev = hist.map Entry.ev ∧
      Twin b b' s s' ∧ TwinArgs b b' a a' := by
  obtain ⟨h1, b, b', h2, h3⟩ := h.start
  induction hr with
  | start hs =>
    rw [hs] at h1 h2
    exact ⟨[], _, b, b', .start (Prod.ext rfl h1), rfl, h2, h3⟩
  | @step h s t pc pc' ev _ hs ih =>
    obtain ⟨hist', s', b, b', k1, k2, k3, k4⟩ := ih
    have hy : yields hist' = yields h := by
      have : ∀ l : History α κ W, yields l = (l.map Entry.ev).filterMap Event.yield? := by
        intro l; unfold yields; rw [List.filterMap_map]; rfl
      rw [this, this, k2]
    have k5 := (k3.resumed w (yields h) pc).step k4 abs pc
    rw [hs] at k5
    obtain ⟨k6, k7⟩ := k5
    refine ⟨_, _, b, b', .step k1 (s' := ((resumed w (yields h) s' pc).step a' abs pc).1)
      (pc' := pc') (ev := ev) ?_, ?_, k7, k4⟩
    · rw [hy]; exact Prod.ext rfl k6
    · rw [List.map_append, List.map_append, k2]
      cases ev <;> rfl

/-- C70: if conditions of nodes and termination conditions are replaced by ones that can
replace them, nothing changes: with any consumer, the run goes through the same events
(and so yields the same sets), raises the same exceptions and leaves everything that can be
seen of the scheduler the same. -/
theorem C70_schedule (h : Rewritten s0 s0' a a') (w : List (List α) → World α κ W) (abs : Bool)
    (evs : List (Event α)) (v : View α κ W) (pc : PC α) :
    (s0'.start a').2 = (s0.start a).2 ∧
    (Observable w a' s0' abs evs v pc ↔ Observable w a s0 abs evs v pc) := by
  refine ⟨h.start.1, ?_, ?_⟩
  · rintro ⟨hist, s, h1, rfl, rfl⟩
    obtain ⟨hist', s', _, _, k1, k2, k3, _⟩ := rewritten_follow (rewritten_symm h) w h1
    exact ⟨hist', s', k1, k2, k3.view⟩
  · rintro ⟨hist, s, h1, rfl, rfl⟩
    obtain ⟨hist', s', _, _, k1, k2, k3, _⟩ := rewritten_follow h w h1
    exact ⟨hist', s', k1, k2, k3.view⟩

/-- C70: a condition can replace itself, and replacing is symmetric and transitive. -/
theorem C70_equivalence :
    (Shared b b' c → Interchangeable b b' c c) ∧
    (Interchangeable b b' c d → Interchangeable b' b d c) ∧
    (Interchangeable b b c c' → Interchangeable b b' c' d → Interchangeable b b' c d) :=
  ⟨interchangeable_self, fun h => h.symm, fun h k => h.trans k⟩

/-- C70: components of `All`, `Any`, `Not` and `NWhen` can be replaced. -/
theorem C70_inside (o o' : OId) (n : Int) (h : Interchangeable b b' c c')
    (hs : Listwise (Interchangeable b b') cs ds) :
    Interchangeable b b' (.all o cs) (.all o' ds) ∧ Interchangeable b b' (.any o cs) (.any o' ds) ∧
    Interchangeable b b' (.not o c) (.not o' c') ∧ Interchangeable b b' (.nwhen o c n) (.nwhen o c' n) :=
  ⟨congr_all o o' hs, congr_any o o' hs, congr_not o o' h.same, congr_nwhen o n h.same⟩

/-- C70: `All` and `Any` of one condition; double negation and de Morgan's laws where the
condition is not about absolute time. -/
theorem C70_logic (o o1 o2 : OId) (h : Interchangeable b b' c c')
    (hn : Listwise (fun c d => ∃ o c', d = .not o c' ∧ Interchangeable b b' c c') cs ds) :
    Interchangeable b b' c (.all o [c']) ∧ Interchangeable b b' c (.any o [c']) ∧
    (c.isAbsolute = false → Interchangeable b b' c (.not o1 (.not o2 c'))) ∧
    Interchangeable b b' (.not o (.all o1 cs)) (.any o2 ds) ∧
    Interchangeable b b' (.not o (.any o1 cs)) (.all o2 ds) := by
  have hn' : Negations b b' cs ds := hn.imp fun x y ⟨o, c', k1, k2⟩ => ⟨o, c', k1, k2.same⟩
  refine ⟨all_single o h, any_single o h, not_not_alike o1 o2 h.same,
    alike_plain (deMorgan_all hn') rfl (negations_absolute hn'),
    alike_plain (deMorgan_any hn') rfl (negations_absolute hn')⟩

theorem pure_all {e f : Cond α κ W} (he : Pure e) (hf : Pure f) (v : View α κ W) (id : Option κ)
    (st : Store α κ) : ∃ x y, (eval v id e st).1 = .ok x ∧
      (eval v id f (eval v id e st).2).1 = .ok y ∧
      (evalAll v id [e, f] st).1 = .ok (x && y) ∧ (evalAll v id [e, f] st).2.sat = st.sat ∧
      (evalAny v id [e, f] st).1 = .ok (x || y) ∧ (evalAny v id [e, f] st).2.sat = st.sat := by
  obtain ⟨⟨x, h1⟩, h2⟩ := he v id st
  obtain ⟨⟨y, h3⟩, h4⟩ := hf v id (eval v id e st).2
  refine ⟨x, y, h1, h3, ?_⟩
  simp only [evalAll, evalAny]
  rcases e1 : eval v id e st with ⟨r, t⟩
  rw [e1] at h1 h2 h3 h4
  dsimp only at h1 h2 h3 h4
  subst h1
  rcases e2 : eval v id f t with ⟨r, u⟩
  rw [e2] at h3 h4
  dsimp only at h3 h4
  subst h3
  cases x <;> cases y <;> simp [h2, h4, e2]

/-- C70: the order of two components that never raise exceptions and do not count does not
matter. -/
theorem C70_order (o o' : OId) (hc : Interchangeable b b' c c') (hd : Interchangeable b b' d d')
    (p1 : Pure c) (p2 : Pure d) :
    Interchangeable b b' (.all o [c, d]) (.all o' [d', c']) ∧
    Interchangeable b b' (.any o [c, d]) (.any o' [d', c']) := by
  have q : ∀ v id st st', OwnersKept b st → OwnersKept b' st' → st'.sat = st.sat →
      ∃ x y, (evalAll v id [c, d] st).1 = .ok (x && y) ∧ (evalAll v id [c, d] st).2.sat = st.sat ∧
        (evalAny v id [c, d] st).1 = .ok (x || y) ∧ (evalAny v id [c, d] st).2.sat = st.sat ∧
        (evalAll v id [d', c'] st').1 = .ok (y && x) ∧ (evalAll v id [d', c'] st').2.sat = st.sat ∧
        (evalAny v id [d', c'] st').1 = .ok (y || x) ∧ (evalAny v id [d', c'] st').2.sat = st.sat := by
    intro v id st st' h1 h2 h3
    obtain ⟨x, y, a1, a2, a3, a4, a5, a6⟩ := pure_all p1 p2 v id st
    refine ⟨x, y, a3, a4, a5, a6, ?_⟩
    have hcs := (p1 v id st).2
    obtain ⟨b1, b2⟩ := hd.same v id _ st' (keptOf v id c h1) h2 (by rw [hcs]; exact h3)
    have hds := (p2 v id (eval v id c st).2).2
    rw [a2] at b1
    rw [hds, hcs] at b2
    obtain ⟨d1, d2⟩ := hc.same v id st (eval v id d' st').2 h1 (keptOf v id d' h2) b2
    rw [a1] at d1
    rw [hcs] at d2
    simp only [evalAll, evalAny]
    rcases e1 : eval v id d' st' with ⟨r, t⟩
    rw [e1] at b1 b2 d1 d2
    dsimp only at b1 b2 d1 d2
    subst b1
    rcases e2 : eval v id c' t with ⟨r, u⟩
    rw [e2] at d1 d2
    dsimp only at d1 d2
    subst d1
    cases x <;> cases y <;> simp [b2, d2, e2]
  have sw : ∀ l l' k k' : List Qty, SameDurations l l' → SameDurations k k' →
      SameDurations (l ++ k) (k' ++ l') := by
    intro l l' k k' h1 h2 x
    rw [List.map_append, List.map_append, List.mem_append, List.mem_append, h1 x, h2 x]
    exact Or.comm
  have iv : SameDurations (intervalsOf [c, d]) (intervalsOf [d', c']) := by
    simp only [intervalsOf, List.append_nil, hc.absolute, hd.absolute]
    refine sw _ _ _ _ ?_ ?_
    · split
      · exact hc.intervals ‹_›
      · exact .refl _
    · split
      · exact hd.intervals ‹_›
      · exact .refl _
  have fp : SameDurations (fixedPointsOf [c, d]) (fixedPointsOf [d', c']) := by
    simp only [fixedPointsOf, List.append_nil, hc.absolute, hd.absolute]
    refine sw _ _ _ _ ?_ ?_
    · split
      · exact hc.points ‹_›
      · exact .refl _
    · split
      · exact hd.points ‹_›
      · exact .refl _
  have ab : anyAbsolute [d', c'] = anyAbsolute [c, d] := by
    simp only [anyAbsolute, Bool.or_false, hc.absolute, hd.absolute]
    exact Bool.or_comm _ _
  refine ⟨⟨?_, ab, fun _ => iv, fun _ => fp⟩, ⟨?_, ab, fun _ => iv, fun _ => fp⟩⟩
  · intro v id st st' h1 h2 h3
    obtain ⟨x, y, a1, a2, _, _, a5, a6, _⟩ := q v id st st' h1 h2 h3
    show (evalAll v id [d', c'] st').1 = (evalAll v id [c, d] st).1 ∧
      (evalAll v id [d', c'] st').2.sat = (evalAll v id [c, d] st).2.sat
    rw [a1, a2, a5, a6, Bool.and_comm]; exact ⟨rfl, rfl⟩
  · intro v id st st' h1 h2 h3
    obtain ⟨x, y, _, _, a1, a2, _, _, a5, a6⟩ := q v id st st' h1 h2 h3
    show (evalAny v id [d', c'] st').1 = (evalAny v id [c, d] st).1 ∧
      (evalAny v id [d', c'] st').2.sat = (evalAny v id [c, d] st).2.sat
    rw [a1, a2, a5, a6, Bool.or_comm]; exact ⟨rfl, rfl⟩

theorem callCount_congr {v : View α κ W} {id : Option κ} {ts : TimeScale} {d : α} {f g : Int → Bool}
    (h : ∀ k, g k = f k) : callCount v id ts d g = callCount v id ts d f := by
  have : g = f := funext h
  rw [this]

theorem callCount_not {v : View α κ W} {id : Option κ} {ts : TimeScale} {d : α} {f g : Int → Bool}
    (h : ∀ k, g k = !f k) : callCount v id ts d g = notResult (callCount v id ts d f) := by
  have : g = fun k => !f k := funext h
  rw [this]
  unfold callCount
  cases v.total id ts d <;> rfl

theorem relTime_congr {v : View α κ W} {id : Option κ} {q ts : TimeScale} {f g : Int → Bool}
    (h : ∀ k, g k = f k) : relTime v id q ts g = relTime v id q ts f := by
  have : g = f := funext h
  rw [this]

theorem relTime_not {v : View α κ W} {id : Option κ} {q ts : TimeScale} {f g : Int → Bool}
    (h : ∀ k, g k = !f k) : relTime v id q ts g = notResult (relTime v id q ts f) := by
  have : g = fun k => !f k := funext h
  rw [this]
  unfold relTime
  cases (v.clock id).getTotalTimesRelative q ts <;> rfl

/-- C70: laws for conditions on calls: `AfterCall(d, n)` is `AfterNCalls(d, n + 1)`,
`Not(BeforeNCalls(d, n))` is `AfterNCalls(d, n)`, and `AfterNCallsCombined(d, n=n)` is
`AfterNCalls(d, n)`. -/
theorem C70_calls (o o1 o' : OId) (x : α) (n : Int) (ts : TimeScale) :
    Interchangeable b b' (.leaf o (.afterCall x n ts) : Cond α κ W) (.leaf o' (.afterNCalls x (n + 1) ts)) ∧
    Interchangeable b b' (.not o1 (.leaf o (.beforeNCalls x n ts)) : Cond α κ W)
      (.leaf o' (.afterNCalls x n ts)) ∧
    Interchangeable b b' (.leaf o (.afterNCallsCombined [x] (some n) ts) : Cond α κ W)
      (.leaf o' (.afterNCalls x n ts)) := by
  refine ⟨leaves_alike _ _ (fun v id _ _ => ?_) rfl rfl, leaves_not _ _ _ (fun v id _ _ => ?_) rfl,
    leaves_alike _ _ (fun v id _ _ => ?_) rfl rfl⟩
  · simp only [evalLeaf]; exact callCount_congr fun k => decide_eq_decide.mpr (by omega)
  · simp only [evalLeaf]; refine callCount_not fun k => ?_
    rw [← decide_not]; exact decide_eq_decide.mpr (by omega)
  · simp only [evalLeaf, sumCalls, callCount]
    cases v.total id ts x with
    | error e => rfl
    | ok m => simp

/-- C70: laws for conditions on time: `After...(n)` is `AfterN...s(n + 1)` and
`Not(Before...(n))` is `AfterN...s(n)`, for consideration set executions, passes,
environment state updates and (the first law) environment sequences. -/
theorem C70_times (o o1 o' : OId) (n : Int) (ts : TimeScale) :
    Interchangeable b b' (.leaf o (.afterConsiderationSetExecution n ts) : Cond α κ W)
      (.leaf o' (.afterNConsiderationSetExecutions (n + 1) ts)) ∧
    Interchangeable b b' (.not o1 (.leaf o (.beforeConsiderationSetExecution n ts)) : Cond α κ W)
      (.leaf o' (.afterNConsiderationSetExecutions n ts)) ∧
    Interchangeable b b' (.leaf o (.afterPass n ts) : Cond α κ W) (.leaf o' (.afterNPasses (n + 1) ts)) ∧
    Interchangeable b b' (.not o1 (.leaf o (.beforePass n ts)) : Cond α κ W)
      (.leaf o' (.afterNPasses n ts)) ∧
    Interchangeable b b' (.leaf o (.afterEnvironmentStateUpdate n ts) : Cond α κ W)
      (.leaf o' (.afterNEnvironmentStateUpdates (n + 1) ts)) ∧
    Interchangeable b b' (.not o1 (.leaf o (.beforeEnvironmentStateUpdate n ts)) : Cond α κ W)
      (.leaf o' (.afterNEnvironmentStateUpdates n ts)) ∧
    Interchangeable b b' (.leaf o (.afterEnvironmentSequence n) : Cond α κ W)
      (.leaf o' (.afterNEnvironmentSequences (n + 1))) := by
  refine ⟨leaves_alike _ _ (fun v id _ _ => ?_) rfl rfl, leaves_not _ _ _ (fun v id _ _ => ?_) rfl,
    leaves_alike _ _ (fun v id _ _ => ?_) rfl rfl, leaves_not _ _ _ (fun v id _ _ => ?_) rfl,
    leaves_alike _ _ (fun v id _ _ => ?_) rfl rfl, leaves_not _ _ _ (fun v id _ _ => ?_) rfl,
    leaves_alike _ _ (fun v id _ _ => ?_) rfl rfl⟩
  · simp only [evalLeaf]; exact relTime_congr fun k => decide_eq_decide.mpr (by omega)
  · simp only [evalLeaf]; refine relTime_not fun k => ?_
    rw [← decide_not]; exact decide_eq_decide.mpr (by omega)
  · simp only [evalLeaf]; exact relTime_congr fun k => decide_eq_decide.mpr (by omega)
  · simp only [evalLeaf]; refine relTime_not fun k => ?_
    rw [← decide_not]; exact decide_eq_decide.mpr (by omega)
  · simp only [evalLeaf]; exact relTime_congr fun k => decide_eq_decide.mpr (by omega)
  · simp only [evalLeaf]; refine relTime_not fun k => ?_
    rw [← decide_not]; exact decide_eq_decide.mpr (by omega)
  · simp only [evalLeaf]
    congr 1

/-- C70: a `TimeInterval` (with the same owner) or `TimeTermination` can be given in any
units. -/
theorem C70_durations (o o' : OId) (r r' s s' e e' : Option Qty) (t t' : Qty) (si ei incl : Bool)
    (ho : o < b.fresh) (ho' : o' < b'.fresh) (hw : b'.owner o' = b.owner o)
    (h1 : SameDuration r r') (h2 : SameDuration s s') (h3 : SameDuration e e') (h4 : t'.val = t.val) :
    Interchangeable b b' (.leaf o (.timeInterval r s e si ei) : Cond α κ W)
      (.leaf o' (.timeInterval r' s' e' si ei)) ∧
    Interchangeable b b' (.leaf o (.timeTermination t incl) : Cond α κ W)
      (.leaf o' (.timeTermination t' incl)) := by
  have cases2 : ∀ {x y : Option Qty}, SameDuration x y →
      (x = none ∧ y = none) ∨ ∃ p q, x = some p ∧ y = some q ∧ q.val = p.val := by
    intro x y h
    cases x <;> cases y <;> simp_all [SameDuration]
  have one : ∀ {p q : Qty}, q.val = p.val → SameDurations [p] [q] := by
    intro p q h x; simp [h]
  refine ⟨⟨?_, rfl, fun _ => ?_, fun _ => ?_⟩, ⟨?_, rfl, fun _ => ?_, fun _ => ?_⟩⟩
  · intro v id st st' k1 k2 k3
    refine ⟨?_, k3⟩
    simp only [eval, evalLeaf]
    rw [k1.2 o ho, k2.2 o' ho', hw]
    rcases cases2 h1 with ⟨rfl, rfl⟩ | ⟨p, q, rfl, rfl, g1⟩ <;>
      rcases cases2 h2 with ⟨rfl, rfl⟩ | ⟨p2, q2, rfl, rfl, g2⟩ <;>
      rcases cases2 h3 with ⟨rfl, rfl⟩ | ⟨p3, q3, rfl, rfl, g3⟩ <;>
      simp only [timeIntervalFunc, repeatOk, *]
  · rcases cases2 h1 with ⟨rfl, rfl⟩ | ⟨p, q, rfl, rfl, g1⟩
    · exact .refl _
    · exact one g1
  · show SameDurations (intervalPoints s e si ei) (intervalPoints s' e' si ei)
    unfold intervalPoints
    refine SameDurations.append ?_ ?_
    · rcases cases2 h2 with ⟨rfl, rfl⟩ | ⟨p, q, rfl, rfl, g1⟩
      · exact .refl _
      · cases si
        · exact .refl _
        · exact one g1
    · rcases cases2 h3 with ⟨rfl, rfl⟩ | ⟨p, q, rfl, rfl, g1⟩
      · exact .refl _
      · cases ei
        · exact .refl _
        · exact one g1
  · intro v id st st' _ _ k3
    refine ⟨?_, k3⟩
    simp only [eval, evalLeaf, h4]
  · exact .refl _
  · show SameDurations (if incl then [t] else []) (if incl then [t'] else [])
    cases incl
    · exact .refl _
    · exact one h4

theorem finished_any (v : View α κ W) (id : Option κ) (o : α → OId) (st : Store α κ) (xs : List α) :
    evalAny v id (xs.map fun x => .leaf (o x) (.whenFinished x)) st = (finishedAny v id xs, st) := by
  induction xs with
  | nil => rfl
  | cons x xs ih =>
    simp only [List.map_cons, evalAny, eval, evalLeaf, finishedAny]
    cases isFinished v id x with
    | error e => rfl
    | ok r => cases r <;> simp [ih]

theorem finished_all (v : View α κ W) (id : Option κ) (o : α → OId) (st : Store α κ) (xs : List α) :
    evalAll v id (xs.map fun x => .leaf (o x) (.whenFinished x)) st = (finishedAll v id xs, st) := by
  induction xs with
  | nil => rfl
  | cons x xs ih =>
    simp only [List.map_cons, evalAll, eval, evalLeaf, finishedAll]
    cases isFinished v id x with
    | error e => rfl
    | ok r => cases r <;> simp [ih]

/-- C70: `WhenFinishedAny(*xs)` is `Any(*[WhenFinished(x) for x in xs])` and
`WhenFinishedAll(*xs)` is `All(*[WhenFinished(x) for x in xs])`, if there is at least one. -/
theorem C70_finished (o o' : OId) (f : α → OId) (xs : List α) (hx : xs ≠ []) :
    Interchangeable b b' (.leaf o (.whenFinishedAny xs) : Cond α κ W)
      (.any o' (xs.map fun x => .leaf (f x) (.whenFinished x))) ∧
    Interchangeable b b' (.leaf o (.whenFinishedAll xs) : Cond α κ W)
      (.all o' (xs.map fun x => .leaf (f x) (.whenFinished x))) := by
  have ab : anyAbsolute (xs.map fun x => (.leaf (f x) (.whenFinished x) : Cond α κ W)) = false := by
    induction xs with
    | nil => rfl
    | cons x xs ih =>
      by_cases h : xs = []
      · subst h; rfl
      · exact ih h
  refine ⟨alike_plain ?_ rfl ab, alike_plain ?_ rfl ab⟩
  · intro v id st st' _ _ k
    have h1 : eval v id (.any o' (xs.map fun x => (.leaf (f x) (.whenFinished x) : Cond α κ W))) st' =
        (finishedAny v id xs, st') := finished_any v id f st' xs
    have h2 : eval v id (.leaf o (.whenFinishedAny xs) : Cond α κ W) st = (finishedAny v id xs, st) := by
      simp only [eval, evalLeaf, if_neg hx]
    rw [h1, h2]; exact ⟨rfl, k⟩
  · intro v id st st' _ _ k
    have h1 : eval v id (.all o' (xs.map fun x => (.leaf (f x) (.whenFinished x) : Cond α κ W))) st' =
        (finishedAll v id xs, st') := finished_all v id f st' xs
    have h2 : eval v id (.leaf o (.whenFinishedAll xs) : Cond α κ W) st = (finishedAll v id xs, st) := by
      simp only [eval, evalLeaf, if_neg hx]
    rw [h1, h2]; exact ⟨rfl, k⟩

/-! ## An example -/

/-- `Always` and `Not(Never)` can replace each other, never raise exceptions and do not count. -/
example : Interchangeable b b' (.not 0 (.leaf 1 .never) : Cond α κ W) (.leaf 2 .always) ∧
    Spec.Pure (.not 0 (.leaf 1 .never) : Cond α κ W) :=
  ⟨leaves_not _ _ _ (fun _ _ _ _ => rfl) rfl, fun _ _ _ => ⟨⟨true, rfl⟩, rfl⟩⟩

/-- One second and 1000 milliseconds. -/
example : SameDuration (some ⟨1, 3⟩) (some ⟨1000, 0⟩) := by
  unfold SameDuration; decide +kernel

/-- Node 2 has `AfterCall` of node 0 ... -/
def eqv : Sys Nat Nat Unit :=
  ((demo0.alloc 3).addBasic 2 (.leaf 0 (.afterCall 0 1 .environment_state_update)))

/-- ... and the same, written as `Not(BeforeNCalls)`. -/
def eqv' : Sys Nat Nat Unit :=
  ((demo0.alloc 3).addBasic 2 (.not 1 (.leaf 2 (.beforeNCalls 0 2 .environment_state_update))))

/-- The hypothesis of `C70_schedule` holds, for a run that is not trivial. -/
example : Rewritten eqv eqv' demoArgs demoArgs ∧
    yields (runAfter eqv demoArgs 40).1 = [[0], [1], [0], [1, 2]] := by
  refine ⟨⟨rfl, rfl, rfl, rfl, .cons ?_ .nil, rfl, rfl, rfl, ?_, ?_, .nil⟩, by decide +kernel⟩
  · exact (C70_calls (b := eqv.store) 0 0 0 0 1 _).1.trans
      ((C70_calls (b := eqv'.store) (b' := eqv.store) 2 1 0 0 2 _).2.1).symm
  · exact leaves_alike _ _ (fun _ _ _ _ => rfl) rfl rfl
  · exact leaves_alike _ _ (fun _ _ _ _ => rfl) rfl rfl

/-- Two negations of a condition on absolute time hide it from the scheduler: the run is no
longer in absolute-time mode. -/
def nn : Sys Nat Nat Unit :=
  ((Sys.new [(0, [])] .standard none 1 demoWorld).alloc 3).addBasic 0
    (.leaf 0 (.timeInterval none (some ⟨1, 0⟩) none true true))

def nn' : Sys Nat Nat Unit :=
  ((Sys.new [(0, [])] .standard none 1 demoWorld).alloc 3).addBasic 0
    (.not 1 (.not 2 (.leaf 0 (.timeInterval none (some ⟨1, 0⟩) none true true))))

def nnArgs : RunArgs Nat Nat Unit :=
  { id := none, esu := .leaf 10 (.afterNPasses 2 .environment_state_update), seq := .leaf 11 .never }

/-- C70: why absolute time is excepted in `C70_logic`: a node with
`TimeInterval(start=1)` executes, one with `Not(Not(TimeInterval(start=1)))` does not. -/
theorem C70_not_not_interval :
    yields (runAfter nn nnArgs 30).1 = [[0], [0]] ∧ yields (runAfter nn' nnArgs 30).1 = [[], []] ∧
    (runAfter nn nnArgs 30).2.2 = .returned ∧ (runAfter nn' nnArgs 30).2.2 = .returned := by
  decide +kernel

end GS.Props
