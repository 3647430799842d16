import Verif.AbsRun
import Verif.Props.Demo
/-!
# C49: absolute time stamps
-/

set_option linter.unusedSectionVars false

namespace GS.Props
open Spec
variable {α κ W : Type _} [DecidableEq α] [DecidableEq κ]
variable {a : RunArgs α κ W} {abs : Bool} {s s' s0 s1 : Sys α κ W} {pc pc' : PC α}
  {ev : Option (Event α)} {E : Sys α κ W → Sys α κ W → Prop} {h : History α κ W}
  {U : Sys α κ W → Sys α κ W → Prop}

/-- A scheduler used in the examples: graph `0 -> 1`; node 0 has the condition
`TimeInterval(repeat=2)`, node 1 `TimeInterval(repeat=3)`. -/
def ticking : Sys Nat Nat Unit :=
  (((Sys.new [(1, [0])] .standard none 1 demoWorld).alloc 2).addBasic 0
    (.leaf 0 (.timeInterval (some ⟨2, 0⟩) none none true true))).addBasic 1
    (.leaf 1 (.timeInterval (some ⟨3, 0⟩) none none true true))

/-- A run of it until time 12. -/
def untilTwelve : RunArgs Nat Nat Unit :=
  { id := none, esu := .leaf 10 (.timeTermination ⟨12, 0⟩ true), seq := .leaf 11 .never }

theorem ticking_start : (ticking.start untilTwelve).2 = .ok true := by decide +kernel

theorem ticking_reach (E) (k : Nat) :
    Reach E untilTwelve ticking true (runAfter ticking untilTwelve k).1
      (runAfter ticking untilTwelve k).2.1 (runAfter ticking untilTwelve k).2.2 :=
  run_reach ticking_start E k

/-- In absolute-time mode every chosen set is yielded, also if it is empty, and no
additional empty set is. -/
theorem C49_every_set (hr : Reach E a s0 true h s pc) :
    (∀ e ∈ h, ∀ i set b, e.ev = .layer i set b → b = true) ∧ ∀ e ∈ h, e.ev ≠ .emptyPass := by
  refine hr.ind (P := fun h _ _ =>
    (∀ e ∈ h, ∀ i set b, e.ev = .layer i set b → b = true) ∧ ∀ e ∈ h, e.ev ≠ .emptyPass) ?_ ?_ ?_
  · intro s _; exact ⟨by simp, by simp⟩
  · intro h s s' pc pc' ev _ ih hst
    have add : ∀ x, (∀ i set b, x = Event.layer i set b → b = true) → x ≠ Event.emptyPass →
        ev = some x →
        (∀ e ∈ ext h s ev s', ∀ i set b, e.ev = .layer i set b → b = true) ∧
          ∀ e ∈ ext h s ev s', e.ev ≠ .emptyPass := by
      rintro x hx hy rfl
      rw [ext_some]
      refine ⟨fun e he => ?_, fun e he => ?_⟩
      · rcases List.mem_append.mp he with he | he
        · exact ih.1 e he
        · simp at he; subst he; exact hx
      · rcases List.mem_append.mp he with he | he
        · exact ih.2 e he
        · simp at he; subst he; exact hy
    cases hst with
    | yield _ _ ha => cases ha
    | emptyYield _ ha => cases ha
    | silent _ _ ha => cases ha
    | yieldAbs => exact add _ (by rintro i set b h; cases h; rfl) (by simp) rfl
    | fails _ _ hev =>
      rcases hev with rfl | ⟨_, rfl, _⟩
      · rw [ext_none]; exact ih
      · exact add _ (by simp) (by simp) rfl
    | _ => first
      | (rw [ext_none]; exact ih)
      | exact add _ (by simp) (by simp) rfl
  · intro h s s' pc _ ih _ _; exact ih

/-- C49: in absolute-time mode, `execution_timestamps[id]` gains one time for each yielded
set, and the `k`-th of these times is the first one plus `k` times the interval, which is
the same in all of them. -/
theorem C49_stamps (hr : Reach E a s0 true h s pc) (hE : Keeps E fun s => s.clock a.id)
    (hT : Keeps E fun s => Dict.get? s.timestamps a.id)
    {ts0} (h0 : Dict.get? s0.timestamps a.id = some ts0) (hp : ∀ e, pc ≠ .raised e) :
    ∃ l, Dict.get? s.timestamps a.id = some (ts0 ++ l) ∧ l.length = (yields h).length ∧
      ∀ (t0 : Time), l[0]? = some t0 → ∀ (k : Nat) t, l[k]? = some t →
        t.absolute_interval = t0.absolute_interval ∧
        t.absolute = t0.absolute + k * t0.absolute_interval := by
  obtain ⟨s1, h1⟩ := hr.started
  obtain ⟨hk, hy, _⟩ := hr.absTimes hE h1
  obtain ⟨l, h2, h3, h4⟩ := hr.stampList hE hT h1 h0 hp
  have hg : ∀ (k : Nat) t, l[k]? = some t → t.absolute = (s1.clock a.id).time.absolute +
      k * (s1.clock a.id).time.absolute_interval := by
    intro k t ht
    have e : (l.map (fun t => t.absolute))[k]? = some t.absolute := by
      rw [List.getElem?_map, ht]; rfl
    rw [h3, List.getElem?_map] at e
    cases hx : (timedSets a.id h)[k]? with
    | none => rw [hx] at e; cases e
    | some y =>
      rw [hx] at e
      have := hk k y hx
      simp only [Option.map_some, Option.some.injEq] at e
      rw [← e]; exact this
  refine ⟨l, h2, ?_, ?_⟩
  · have := congrArg List.length h3
    rw [List.length_map, List.length_map] at this
    rw [this, ← hy, List.length_map]
  · intro t0 ht0 k t ht
    have e0 := h4 t0 (List.mem_of_getElem? ht0)
    have ek := h4 t (List.mem_of_getElem? ht)
    refine ⟨ek.trans e0.symm, ?_⟩
    rw [hg k t ht, hg 0 t0 ht0, e0]
    grind

/-- C49: the time on the clock whenever a set is yielded. -/
theorem C49_times (hr : Reach E a s0 true h s pc) (hE : Keeps E fun s => s.clock a.id)
    {y0 : Nat × List α × Rat} (h0 : (timedSets a.id h)[0]? = some y0) :
    ∃ u : Rat, ∀ (k : Nat) y, (timedSets a.id h)[k]? = some y → y.2.2 = y0.2.2 + k * u := by
  obtain ⟨s1, h1⟩ := hr.started
  obtain ⟨hk, _, _⟩ := hr.absTimes hE h1
  refine ⟨(s1.clock a.id).time.absolute_interval, fun k y hy => ?_⟩
  rw [hk k y hy, hk 0 y0 h0]
  grind

/-- C49: in standard mode the time from the beginning of a pass to the beginning of the
next one is the greatest common divisor of all repeat intervals used in the run, if the
pass considered all consideration sets (see C57). -/
theorem C49_pass (hr : Reach E a s0 true h s pc) (hE : Keeps E fun s => s.clock a.id)
    (hC : Keeps E fun s => s.conds) (hm : s0.mode = .standard) (hu : ∃ q, RepeatUsed s a q)
    {h1 seg h2 : History α κ W} {p q : Entry α κ W} (hh : h = h1 ++ p :: seg ++ q :: h2)
    (hp : p.ev = .passStart) (hq : q.ev = .passStart)
    (hfull : setsConsidered seg = List.range s0.queue.length) :
    IsGcd (RepeatUsed s a)
      ((q.before.clock a.id).time.absolute - (p.before.clock a.id).time.absolute) := by
  obtain ⟨s1, hs1⟩ := hr.started
  have hst := Sys.start_ok hs1
  have hcs : s.conds = s1.conds := by
    refine hr.ind (P := fun _ s _ => s.conds = s1.conds) ?_ ?_ ?_
    · intro s hs; rw [hs1] at hs; obtain ⟨rfl, _⟩ := Prod.mk.inj hs; rfl
    · intro h s s' pc pc' ev _ ih hst; rw [hst.frame.conds, ih]
    · intro h s s' pc _ ih _ he; exact (hC _ _ he).trans ih
  have hdet : Determines s1 a = RepeatUsed s a := by
    rw [repeatUsed_congr hcs]
    funext q; unfold Determines; rw [hst.mode, hm]; simp
  -- the state at the beginning of a pass
  have at_ : ∀ {hx : History α κ W} {x : Entry α κ W} {tl}, h = hx ++ x :: tl → x.ev = .passStart →
      (x.before.clock a.id).time.absolute = (s1.clock a.id).time.absolute +
        ((timedSets a.id hx).length : Rat) * (s1.clock a.id).time.absolute_interval ∧
      (setsConsidered hx).length = (timedSets a.id hx).length := by
    intro hx x tl hh hxe
    obtain ⟨q, q', hq, hs, _⟩ := hr.entry hx x tl hh
    have hout : q = .outer := by
      have hst := Sys.step_stepR hs
      rw [hxe] at hst
      generalize x.after = sa at hst
      cases hst with
      | pass => rfl
      | fails _ _ hev => rcases hev with h | ⟨_, h, _⟩ <;> cases h
    subst hout
    have i0 := (hq.absTimes hE hs1).2.2 (fun e => by simp)
    have h3 := hq.consideredShown (fun e => by simp) a.id
    refine ⟨?_, h3⟩
    have := i0.time
    simpa [PC.suspended, Rat.add_zero] using this
  obtain ⟨t1, n1⟩ := at_ (hx := h1) (x := p) (tl := seg ++ q :: h2) (by rw [hh]; simp) hp
  obtain ⟨t2, n2⟩ := at_ (hx := h1 ++ p :: seg) (x := q) (tl := h2) hh hq
  have hlen : (timedSets a.id (h1 ++ p :: seg)).length = (timedSets a.id h1).length + s0.queue.length := by
    rw [← n2, ← n1, setsConsidered_append, List.length_append]
    congr 1
    have : setsConsidered (p :: seg) = setsConsidered seg := by
      simp [setsConsidered, hp]
    rw [this, hfull, List.length_range]
  rcases start_interval hs1 with ⟨hn, _⟩ | ⟨_, h0, hg⟩
  · rw [hdet] at hn; exact absurd hu hn
  · rw [hdet] at hg
    have hparts : parts s1 = s0.queue.length := by unfold parts; rw [hst.mode, hm, hst.queue]
    rw [hparts] at hg
    have e : (q.before.clock a.id).time.absolute - (p.before.clock a.id).time.absolute =
        (s0.queue.length : Rat) * (s1.clock a.id).time.absolute_interval := by
      rw [t1, t2, hlen, Rat.natCast_add]
      grind
    rw [e]; exact hg

/-- C49: over the life of a scheduler, through any number of runs under any execution ids
in any interleaving, absolute time never decreases, if the interval given to the
constructor is not negative. -/
theorem C49_never_decreases {log gs} (hl : Life U s0 log s gs) (i : Option κ)
    (hU : Keeps U fun s => s.clock i) (hD : Keeps U fun s => s.defaultUnit)
    (h0 : 0 ≤ s0.defaultUnit) (hi : 0 ≤ (s0.clock i).time.absolute_interval) :
    (s0.clock i).time.absolute ≤ (s.clock i).time.absolute := by
  have : Later i s0 s := by
    induction hl with
    | init => exact .ofClocks hi rfl rfl
    | start _ hs ih =>
      have l := Later.start (i := i) hs (by rw [ih.2.2]; exact h0) ih.2.1
      exact ⟨Rat.le_trans ih.1 l.1, l.2.1, l.2.2.trans ih.2.2⟩
    | startFails _ hs ih =>
      have l := Later.start (i := i) hs (by rw [ih.2.2]; exact h0) ih.2.1
      exact ⟨Rat.le_trans ih.1 l.1, l.2.1, l.2.2.trans ih.2.2⟩
    | step _ _ hs ih =>
      have l := Later.step (i := i) (Sys.step_stepR hs) ih.2.1
      exact ⟨Rat.le_trans ih.1 l.1, l.2.1, l.2.2.trans ih.2.2⟩
    | user _ hu ih =>
      have e := hU _ _ hu
      dsimp only at e
      exact ⟨by rw [e]; exact ih.1, by rw [e]; exact ih.2.1, (hD _ _ hu).trans ih.2.2⟩
  exact this.1

/-- The time stamps of the run of the example: every half unit, also for empty sets. -/
example : (timedSets none (runAfter ticking untilTwelve 60).1).take 8 =
    [(0, [0], 0), (1, [1], 1/2), (0, [], 1), (1, [], 3/2), (0, [0], 2), (1, [], 5/2), (0, [], 3),
      (1, [1], 7/2)] := by decide +kernel

example : Dict.get? ticking.timestamps none = some [] ∧ ticking.mode = .standard ∧
    0 ≤ ticking.defaultUnit ∧ 0 ≤ (ticking.clock none).time.absolute_interval :=
  ⟨rfl, rfl, by decide +kernel, by decide +kernel⟩

example : RepeatUsed ticking untilTwelve ⟨2, 0⟩ :=
  ⟨_, .inl ⟨0, List.mem_cons_self⟩, .leaf⟩

/-- The second pass of the example begins one unit after the first. -/
example : ((runAfter ticking untilTwelve 60).1.filter isPassStart).map
    (fun e => (e.before.clock none).time.absolute) = [0, 1, 2, 3, 4] ∧
    (setsConsidered (runAfter ticking untilTwelve 60).1) = [0, 1, 0, 1, 0, 1, 0, 1, 0, 1] := by
  decide +kernel

end GS.Props
