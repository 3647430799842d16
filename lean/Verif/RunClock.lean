import Verif.RunInv
/-!
# The clock during a run
-/

set_option linter.unusedSectionVars false

namespace GS
open Spec TimeScale
variable {α κ W β : Type _} [DecidableEq α] [DecidableEq κ]
variable {E : Sys α κ W → Sys α κ W → Prop} {a : RunArgs α κ W} {s0 s : Sys α κ W}
variable {abs : Bool} {h : History α κ W} {pc : PC α}

theorem shows_iff {c : Clock} {log : List TimeScale} :
    Shows c log ↔ NoLife log ∧ c.tree = Tree.ofLog Clock.maxDepth 4 0 log ∧
      ∀ s, c.time.at_ s = field log s := by
  constructor
  · rintro ⟨h, c0, h1, h2, h3⟩
    obtain ⟨p, hp⟩ := Clock.incrs_eq log h
    rw [hp] at h1; injection h1 with h1; subst h1
    exact ⟨h, h2, fun s => by rw [h3]; exact Time.incrs_at log s⟩
  · rintro ⟨h, h2, h3⟩
    obtain ⟨p, hp⟩ := Clock.incrs_eq log h
    exact ⟨h, _, hp, h2, fun s => by rw [h3]; exact (Time.incrs_at log s).symm⟩

theorem Spec.Shows.new : Shows Clock.new [] := ⟨by decide, Clock.new, rfl, rfl, fun _ => rfl⟩

theorem Spec.Shows.incr {c : Clock} {log : List TimeScale} (h : Shows c log) {ts : TimeScale}
    (ht : ts ≠ life) : ∃ c', c.incr ts = .ok c' ∧ Shows c' (log ++ [ts]) := by
  obtain ⟨h1, h2, h3⟩ := shows_iff.1 h
  have hx : ts.val < 3 + 1 := by revert ht; cases ts <;> simp [val]
  have hi := Tree.incr_ofLog Clock.maxDepth (by decide) ts 3 0 log hx
  refine ⟨{ tree := Tree.ofLog Clock.maxDepth 4 0 (log ++ [ts]), time := c.time.incr ts,
            previous_time := some c.time }, ?_, shows_iff.2 ⟨?_, rfl, ?_⟩⟩
  · unfold Clock.incr; rw [h2, hi]
  · intro e he
    rcases List.mem_append.1 he with he | he
    · exact h1 e he
    · simp at he; subst he; exact ht
  · intro s
    show (c.time.incr ts).at_ s = _
    rw [Time.incr_at, field_snoc, h3]

theorem Spec.Shows.step {c c' : Clock} {log : List TimeScale} (h : Shows c log) {ts : TimeScale}
    (ht : ts ≠ life) (hc : c.incr ts = .ok c') : Shows c' (log ++ [ts]) := by
  obtain ⟨c2, h1, h2⟩ := h.incr ht
  rw [hc] at h1; injection h1 with h1; subst h1; exact h2

theorem addToLast_snoc (ps : List (List β)) (p : List β) (x : β) :
    addToLast (ps ++ [p]) x = ps ++ [p ++ [x]] := by
  induction ps with
  | nil => rfl
  | cons q ps ih =>
    cases ps with
    | nil => rfl
    | cons r ps => simp only [List.cons_append, addToLast]; rw [← List.cons_append, ih]; rfl

theorem passYields_snoc (h : History α κ W) (e : Entry α κ W) :
    passYields (h ++ [e]) =
      if e.ev = .passStart then passYields h ++ [[]]
      else match e.ev.yield? with
        | some y => addToLast (passYields h) y
        | none => passYields h := by
  unfold passYields
  rw [List.foldl_append]; rfl

theorem passYields_passStart (h : History α κ W) (s s' : Sys α κ W) :
    passYields (h ++ [⟨s, .passStart, s'⟩]) = passYields h ++ [[]] := by
  rw [passYields_snoc, if_pos rfl]

theorem passYields_yield (h : History α κ W) (s s' : Sys α κ W) {x : Event α} {y : List α}
    (hx : x.yield? = some y) :
    passYields (h ++ [⟨s, x, s'⟩]) = addToLast (passYields h) y := by
  rw [passYields_snoc]
  have : x ≠ .passStart := by rintro rfl; simp [Event.yield?] at hx
  simp only [this, if_false, hx]

theorem passYields_other (h : History α κ W) (s s' : Sys α κ W) {x : Event α}
    (hx : x.yield? = none) (hp : x ≠ .passStart) :
    passYields (h ++ [⟨s, x, s'⟩]) = passYields h := by
  rw [passYields_snoc]
  simp only [hp, if_false, hx]

/-- The increments of completed passes. -/
def passTicks (ps : List (List (List α))) : List TimeScale :=
  ps.flatMap fun p => List.replicate p.length consideration_set_execution ++ [pass]

theorem passTicks_snoc (ps : List (List (List α))) (p : List (List α)) :
    passTicks (ps ++ [p]) =
      passTicks ps ++ List.replicate p.length consideration_set_execution ++ [pass] := by
  simp [passTicks]

/-- The clock at each point of the run. -/
def ClockAt (a : RunArgs α κ W) (log0 : List TimeScale) (py : List (List (List α))) (c : Clock) :
    PC α → Prop
  | .outer => Shows c (log0 ++ passTicks py)
  | .returned => Shows c (log0 ++ passTicks py ++
      if a.skip then [] else [environment_state_update])
  | .inner _ _ => ∃ ps p, py = ps ++ [p] ∧
      Shows c (log0 ++ passTicks ps ++ List.replicate p.length consideration_set_execution)
  | .choosing _ => ∃ ps p, py = ps ++ [p] ∧
      Shows c (log0 ++ passTicks ps ++ List.replicate p.length consideration_set_execution)
  | .yielded _ _ => ∃ ps p y, py = ps ++ [p ++ [y]] ∧
      Shows c (log0 ++ passTicks ps ++ List.replicate p.length consideration_set_execution)
  | .yieldedEmpty => ∃ ps p y, py = ps ++ [p ++ [y]] ∧
      Shows c (log0 ++ passTicks ps ++ List.replicate p.length consideration_set_execution)
  | .raised _ => True

theorem Reach.clockAt (hr : Reach E a s0 abs h s pc) (hE : Keeps E (fun s => s.clock a.id))
    {log0 : List TimeScale} (h0 : Shows (s0.clock a.id) log0) :
    ClockAt a log0 (passYields h) (s.clock a.id) pc := by
  refine hr.ind (P := fun h s pc => ClockAt a log0 (passYields h) (s.clock a.id) pc) ?_ ?_ ?_
  · intro s hs
    obtain ⟨ab, ai, ae, hc⟩ := (Sys.start_ok hs).clock
    have hcl : s.clock a.id = { (s0.clock a.id) with time :=
      { (s0.clock a.id).time with absolute := ab, absolute_interval := ai, absolute_enabled := ae } } := by
      unfold View.clock at hc ⊢
      rw [hc, Dict.get?_set_self]
    show Shows _ _
    rw [hcl]
    have : passYields ([] : History α κ W) = [] := rfl
    rw [this]
    have : Shows (s0.clock a.id) (log0 ++ passTicks ([] : List (List (List α)))) := by
      simpa [passTicks] using h0
    exact this
  · intro h s s' pc pc' ev _ ih hst
    have hset : ∀ (s : Sys α κ W) st c, ((s.putStore st).setClock a.id c).clock a.id = c :=
      fun s st c => Sys.clock_setClock _ _ _
    have hrep : ∀ k : Nat, List.replicate k consideration_set_execution ++
        [consideration_set_execution] = List.replicate (k + 1) consideration_set_execution :=
      fun k => by rw [List.replicate_succ']
    cases hst with
    | pass hg hf =>
      rw [ext_some, passYields_passStart]
      exact ⟨_, [], rfl, by
        have : Shows (s.clock a.id) (log0 ++ passTicks (passYields h)) := ih
        have this' : Shows (s.clock a.id) (log0 ++ passTicks (passYields h) ++
          List.replicate ([] : List (List α)).length consideration_set_execution) := by
          simpa using this
        exact this'⟩
    | stopSkip hd hst hs =>
      rw [ext_some, passYields_other _ _ _ rfl (by simp)]
      simp only [ClockAt, hs, if_true, List.append_nil]
      exact ih
    | stopIncr hd hst hs hc =>
      rw [ext_some, passYields_other _ _ _ rfl (by simp), hset]
      simp only [ClockAt, hs]
      exact Shows.step ih (by decide) hc
    | passEnd hl hch hc =>
      rw [ext_none, hset]
      obtain ⟨ps, p, h1, h2⟩ := ih
      simp only [ClockAt]
      rw [h1, passTicks_snoc]
      have := h2.step (by decide) hc
      simpa using this
    | emptyYield hl ha hx =>
      rw [ext_some, passYields_yield _ _ _ (y := []) rfl]
      obtain ⟨ps, p, h1, h2⟩ := ih
      refine ⟨ps, p, [], by rw [h1, addToLast_snoc], h2⟩
    | consider hq hg =>
      rw [ext_some, passYields_other _ _ _ rfl (by simp)]
      exact ih
    | again => rw [ext_none]; exact ih
    | skip => rw [ext_none]; exact ih
    | reject => rw [ext_none]; exact ih
    | add =>
      rw [ext_some, passYields_other _ _ _ rfl (by simp)]
      exact ih
    | @yield c =>
      rw [ext_some, passYields_yield _ _ _ (y := c.exec) rfl]
      obtain ⟨ps, p, h1, h2⟩ := ih
      exact ⟨ps, p, _, by rw [h1, addToLast_snoc], h2⟩
    | @yieldAbs c =>
      rw [ext_some, passYields_yield _ _ _ (y := c.exec) rfl]
      obtain ⟨ps, p, h1, h2⟩ := ih
      exact ⟨ps, p, _, by rw [h1, addToLast_snoc], h2⟩
    | silent =>
      rw [ext_some, passYields_other _ _ _ rfl (by simp)]
      exact ih
    | resume hc =>
      rw [ext_none]
      obtain ⟨ps, p, y, h1, h2⟩ := ih
      refine ⟨ps, p ++ [y], h1, ?_⟩
      rw [Sys.clock_setClock, List.length_append, List.length_singleton, ← hrep,
        ← List.append_assoc]
      exact h2.step (by decide) hc
    | resumeEmpty hc1 hc2 =>
      rw [ext_none]
      obtain ⟨ps, p, y, h1, h2⟩ := ih
      simp only [ClockAt]
      rw [h1, passTicks_snoc, Sys.clock_setClock, List.length_append, List.length_singleton, ← hrep]
      have := (h2.step (by decide) hc1).step (by decide) hc2
      simpa using this
    | returned => rw [ext_none]; exact ih
    | raised => trivial
    | fails => trivial
  · intro h s s' pc _ ih _ he
    have e : s'.clock a.id = s.clock a.id := hE _ _ he
    rw [e]; exact ih

/-- `passYields` is the list of yields, cut into passes. -/
theorem Reach.passYields_flatten (hr : Reach E a s0 abs h s pc) :
    (passYields h).flatten = yields h ∧
      (passYields h).length = (h.filter fun e => e.ev = .passStart).length ∧
      (pc = .outer ∨ pc.final ∨ passYields h ≠ []) := by
  refine hr.ind (P := fun h s pc => (passYields h).flatten = yields h ∧
      (passYields h).length = (h.filter fun e => e.ev = .passStart).length ∧
      (pc = .outer ∨ pc.final ∨ passYields h ≠ [])) ?_ ?_ ?_
  · intro s _; exact ⟨rfl, rfl, .inl rfl⟩
  · intro h s s' pc pc' ev _ ih hst
    obtain ⟨i1, i2, i3⟩ := ih
    have other : ∀ (x : Event α), x.yield? = none → x ≠ .passStart →
        (passYields (ext h s (some x) s')).flatten = yields (ext h s (some x) s') ∧
        (passYields (ext h s (some x) s')).length =
          ((ext h s (some x) s').filter fun e => e.ev = .passStart).length ∧
        passYields (ext h s (some x) s') = passYields h := by
      intro x hx hp
      rw [ext_some, passYields_other _ _ _ hx hp, yields_snoc]
      simp [hx, hp, i1, i2]
    have yld : ∀ (x : Event α) y, x.yield? = some y → passYields h ≠ [] →
        (passYields (ext h s (some x) s')).flatten = yields (ext h s (some x) s') ∧
        (passYields (ext h s (some x) s')).length =
          ((ext h s (some x) s').filter fun e => e.ev = .passStart).length ∧
        passYields (ext h s (some x) s') ≠ [] := by
      intro x y hx hne
      have hp : x ≠ .passStart := by rintro rfl; simp [Event.yield?] at hx
      rw [ext_some, passYields_yield _ _ _ hx, yields_snoc]
      rcases List.eq_nil_or_concat (passYields h) with he | ⟨ps, p, he⟩
      · exact absurd he hne
      · rw [List.concat_eq_append] at he
        rw [he, addToLast_snoc]
        rw [he] at i1 i2
        refine ⟨?_, ?_, by simp⟩
        · simp only [hx, Option.toList_some, ← i1]; simp
        · simp [hp] at i2 ⊢; exact i2
    have ne : ∀ (hp : pc ≠ .outer) (hf : pc.final = false), passYields h ≠ [] := by
      intro hp hf
      rcases i3 with h | h | h
      · exact absurd h hp
      · rw [hf] at h; cases h
      · exact h
    cases hst with
    | pass =>
      rw [ext_some, passYields_passStart, yields_snoc]
      refine ⟨by simp [i1, Event.yield?], by simp [i2], .inr (.inr (by simp))⟩
    | stopSkip => obtain ⟨a1, a2, a3⟩ := other .stop rfl (by simp); exact ⟨a1, a2, .inr (.inl rfl)⟩
    | stopIncr => obtain ⟨a1, a2, a3⟩ := other .stop rfl (by simp); exact ⟨a1, a2, .inr (.inl rfl)⟩
    | passEnd => rw [ext_none]; exact ⟨i1, i2, .inl rfl⟩
    | emptyYield =>
      obtain ⟨a1, a2, a3⟩ := yld .emptyPass [] rfl (ne (by simp) rfl); exact ⟨a1, a2, .inr (.inr a3)⟩
    | consider =>
      obtain ⟨a1, a2, a3⟩ := other (.consider _ _) rfl (by simp)
      exact ⟨a1, a2, .inr (.inr (by rw [a3]; exact ne (by simp) rfl))⟩
    | again => rw [ext_none]; exact ⟨i1, i2, .inr (.inr (ne (by simp) rfl))⟩
    | skip => rw [ext_none]; exact ⟨i1, i2, .inr (.inr (ne (by simp) rfl))⟩
    | reject => rw [ext_none]; exact ⟨i1, i2, .inr (.inr (ne (by simp) rfl))⟩
    | add =>
      obtain ⟨a1, a2, a3⟩ := other (.add _) rfl (by simp)
      exact ⟨a1, a2, .inr (.inr (by rw [a3]; exact ne (by simp) rfl))⟩
    | yield =>
      obtain ⟨a1, a2, a3⟩ := yld (.layer _ _ true) _ rfl (ne (by simp) rfl)
      exact ⟨a1, a2, .inr (.inr a3)⟩
    | yieldAbs =>
      obtain ⟨a1, a2, a3⟩ := yld (.layer _ _ true) _ rfl (ne (by simp) rfl)
      exact ⟨a1, a2, .inr (.inr a3)⟩
    | silent =>
      obtain ⟨a1, a2, a3⟩ := other (.layer _ _ false) rfl (by simp)
      exact ⟨a1, a2, .inr (.inr (by rw [a3]; exact ne (by simp) rfl))⟩
    | resume => rw [ext_none]; exact ⟨i1, i2, .inr (.inr (ne (by simp) rfl))⟩
    | resumeEmpty => rw [ext_none]; exact ⟨i1, i2, .inl rfl⟩
    | returned => rw [ext_none]; exact ⟨i1, i2, .inr (.inl rfl)⟩
    | raised => rw [ext_none]; exact ⟨i1, i2, .inr (.inl rfl)⟩
    | fails hp hfr hev =>
      rcases hev with rfl | ⟨_, rfl, _⟩
      · rw [ext_none]; exact ⟨i1, i2, .inr (.inl rfl)⟩
      · obtain ⟨a1, a2, a3⟩ := other .stop rfl (by simp); exact ⟨a1, a2, .inr (.inl rfl)⟩
  · intro h s s' pc _ ih _ _; exact ih

end GS
