import Verif.OrderSim
import Verif.RunEnds
/-!
# Whole runs that differ in the iteration order of sets
-/

set_option linter.unusedSectionVars false

namespace GS
open Spec
variable {α κ W : Type _} [DecidableEq α] [DecidableEq κ]
variable {a : RunArgs α κ W} {abs : Bool} {s0 s0' s s' t t' : Sys α κ W}
variable {w : List (List α) → World α κ W} {h h' : History α κ W} {pc pc' : PC α}

/-- A run with a consumer that behaves as `w` says, after `n` macro steps. -/
inductive Big (w : List (List α) → World α κ W) (a : RunArgs α κ W) (s0 : Sys α κ W) (abs : Bool) :
    Nat → List (List α) → Sys α κ W → PC α → Prop
  | start {s : Sys α κ W} : s0.start a = (s, .ok abs) → Big w a s0 abs 0 [] s .outer
  | step {n ys} {s s' : Sys α κ W} {pc pc' : PC α} {y} : Big w a s0 abs n ys s pc →
      Macro a abs (resumed w ys s pc) pc s' pc' y → Big w a s0 abs (n + 1) (ys ++ y.toList) s' pc'

theorem yields_ext (h : History α κ W) (s s' : Sys α κ W) (ev : Option (Event α)) :
    yields (h ++ ev.toList.map fun x => ⟨s, x, s'⟩) = yields h ++ (ev.bind Event.yield?).toList := by
  unfold yields
  rw [List.filterMap_append]
  cases ev with
  | none => simp
  | some x =>
    simp only [Option.toList_some, List.map_cons, List.map_nil, Option.bind_some]
    cases hx : x.yield? <;> simp [hx]

theorem resumed_not {ys : List (List α)} (hp : pc.suspended = false) : resumed w ys s pc = s := by
  unfold resumed; simp [hp]

theorem busy_not (hp : pc.busy = true) : pc.suspended = false := by
  cases pc <;> first | rfl | cases hp

/-- Every run is, up to its last unfinished choice, a sequence of macro steps. -/
theorem Spec.Scripted.big (hr : Scripted w a s0 abs h s pc) :
    (pc.busy = false → ∃ n, Big w a s0 abs n (yields h) s pc) ∧
    (∀ c, pc = .choosing c → ∃ n s1 idx changed layer st,
      Big w a s0 abs n (yields h) s1 (.inner idx changed) ∧ s1.queue[idx]? = some layer ∧
      Going s1 a st ∧ Choosing a abs (s1.putStore st) ⟨idx, changed, layer, [], layer, false⟩ s c) := by
  induction hr with
  | start hs => exact ⟨fun _ => ⟨0, .start hs⟩, fun c hc => by cases hc⟩
  | @step h s s' pc pc' ev hr hs ih =>
    have hst := Sys.step_stepR hs
    rw [yields_ext]
    cases hb : pc.busy with
    | false =>
      obtain ⟨n, hn⟩ := ih.1 hb
      cases hb' : pc'.busy with
      | false =>
        refine ⟨fun _ => ⟨n + 1, .step hn (.one hst hb hb')⟩, ?_⟩
        intro c hc; rw [hc] at hb'; cases hb'
      | true =>
        refine ⟨fun x => (by cases x), ?_⟩
        intro c hc
        subst hc
        cases hst with
        | @consider idx changed st layer hq hg =>
          rw [resumed_not rfl] at hq hg
          refine ⟨n, s, idx, changed, layer, st, ?_, hq, hg, ?_⟩
          · simpa [Event.yield?] using hn
          · rw [resumed_not rfl]; exact .refl
        | again => cases hb
        | skip => cases hb
        | reject => cases hb
        | add => cases hb
    | true =>
      cases pc with
      | choosing c =>
        obtain ⟨n, s1, idx, changed, layer, st, h1, h2, h3, h4⟩ := ih.2 c rfl
        rw [resumed_not rfl] at hst
        cases hb' : pc'.busy with
        | false =>
          refine ⟨fun _ => ⟨n + 1, .step h1 ?_⟩, ?_⟩
          · rw [resumed_not rfl]; exact .layer h2 h3 h4 hst hb'
          · intro c hc; rw [hc] at hb'; cases hb'
        | true =>
          refine ⟨fun x => (by cases x), ?_⟩
          intro c' hc
          subst hc
          refine ⟨n, s1, idx, changed, layer, st, ?_, h2, h3, .step h4 hst⟩
          have : (ev.bind Event.yield?) = none := by
            cases hst <;> rfl
          rw [this]; simpa using h1
      | _ => cases hb

/-! ## Runs that are over -/

theorem Macro.final {y} (hm : Macro a abs s pc s' pc' y) (hf : pc.final = true) :
    pc' = pc ∧ y = none := by
  cases hm with
  | one hs hb hb' =>
    cases hs with
    | returned => exact ⟨rfl, rfl⟩
    | raised => exact ⟨rfl, rfl⟩
    | fails hp _ _ => rw [hp] at hf; cases hf
    | _ => cases hf
  | layer => cases hf

/-- A run begins with all its shorter beginnings. -/
theorem Big.prefix {n : Nat} {ys} (hb : Big w a s0 abs n ys s pc) : ∀ m ≤ n,
    ∃ ys1 ys2 s1 pc1, Big w a s0 abs m ys1 s1 pc1 ∧ ys = ys1 ++ ys2 ∧
      (pc1.final = true → ys2 = [] ∧ pc = pc1) := by
  induction hb with
  | start hs =>
    intro m hm
    have : m = 0 := by omega
    subst this
    exact ⟨[], [], _, _, .start hs, rfl, fun hf => by cases hf⟩
  | @step n ys s s' pc pc' y hb hm ih =>
    intro m hle
    by_cases h : m = n + 1
    · subst h
      exact ⟨_, [], _, _, .step hb hm, by simp, fun _ => ⟨rfl, rfl⟩⟩
    · obtain ⟨ys1, ys2, s1, pc1, h1, h2, h3⟩ := ih m (by omega)
      refine ⟨ys1, ys2 ++ y.toList, s1, pc1, h1, by rw [h2]; simp, ?_⟩
      intro hf
      obtain ⟨h4, h5⟩ := h3 hf
      subst h5
      obtain ⟨h6, h7⟩ := hm.final hf
      exact ⟨by rw [h4, h7]; rfl, h6⟩

/-! ## Two runs -/

/-- The sets at the same places have the same members. -/
def Compatible (ys ys' : List (List α)) : Prop :=
  ∀ (k : Nat) (x y : List α), ys[k]? = some x → ys'[k]? = some y → SameMembers x y

theorem Spec.SameSets.compatible {ys ys' : List (List α)} (h : SameSets ys ys') :
    Compatible ys ys' := by
  intro k x y hx hy
  obtain ⟨z, hz, hxz⟩ := h.get hx
  rw [hy] at hz; injection hz with hz; subst hz; exact hxz

theorem Compatible.longer {ys ys' z : List (List α)} (h : Compatible ys ys')
    (hl : ys.length ≤ ys'.length) : Compatible ys (ys' ++ z) := by
  intro k x y hx hy
  have : k < ys.length := by
    have := List.getElem?_eq_some_iff.1 hx; exact this.1
  rw [List.getElem?_append_left (by omega)] at hy
  exact h k x y hx hy

theorem Compatible.longer' {ys ys' z : List (List α)} (h : Compatible ys ys')
    (hl : ys'.length ≤ ys.length) : Compatible (ys ++ z) ys' := by
  intro k x y hx hy
  have : k < ys'.length := by
    have := List.getElem?_eq_some_iff.1 hy; exact this.1
  rw [List.getElem?_append_left (by omega)] at hx
  exact h k x y hx hy

theorem failed_final (h : pc.failed = true) : pc.final = true := by
  cases pc <;> first | rfl | cases h

/-- What is known of two runs after the same number of macro steps. -/
inductive Pair (a : RunArgs α κ W) (q : List (List α)) (ys : List (List α)) (s : Sys α κ W) (pc : PC α)
    (ys' : List (List α)) (s' : Sys α κ W) (pc' : PC α) : Prop
  | both : pc.failed = false → pc'.failed = false → SameSets ys ys' → After a q s pc s' pc' →
      Pair a q ys s pc ys' s' pc'
  | left : pc.failed = true → ys.length ≤ ys'.length → Compatible ys ys' → Pair a q ys s pc ys' s' pc'
  | right : pc'.failed = true → ys'.length ≤ ys.length → Compatible ys ys' →
      Pair a q ys s pc ys' s' pc'

theorem After.suspended {q : List (List α)} (h : After a q s pc s' pc') {ys ys' : List (List α)}
    (hw : w ys' = w ys) : After a q (resumed w ys s pc) pc (resumed w ys' s' pc') pc' := by
  obtain ⟨h1, h2⟩ := h
  subst h1
  refine ⟨rfl, ?_⟩
  rcases h2 with h2 | ⟨h2, h3, h4⟩
  · exact .inl h2
  · refine .inr ?_
    unfold resumed
    split
    · rw [hw]
      exact ⟨h2.putWorld _, h3.frame rfl rfl rfl, h4⟩
    · exact ⟨h2, h3, h4⟩

theorem Big.pair {q : List (List α)}
    (hw : ∀ ys ys', SameSets ys ys' → w ys' = w ys)
    (hstart : ∀ t t', s0.start a = (t, .ok abs) → s0'.start a = (t', .ok abs) →
      Corr a (NotTogether q) t t' ∧ OrderFree t a ∧ t.queue = q) {n : Nat} {ys ys'}
    (h1 : Big w a s0 abs n ys s pc) (h2 : Big w a s0' abs n ys' s' pc') :
    Pair a q ys s pc ys' s' pc' := by
  induction h1 generalizing ys' s' pc' with
  | start hs =>
    cases h2 with
    | start hs' => exact .both rfl rfl .nil ⟨rfl, .inr (hstart _ _ hs hs')⟩
  | @step n ys s t pc p y hb hm ih =>
    cases h2 with
    | @step _ ys' sB _ pB _ y' hb' hm' =>
      cases ih hb' with
      | both hf hf' hys haf =>
        have haf := haf.suspended (w := w) (hw ys ys' hys)
        obtain ⟨e, hcase⟩ := haf
        subst e
        by_cases hret : pB = .returned
        · subst hret
          obtain ⟨e1, e2⟩ := hm.final rfl
          obtain ⟨e3, e4⟩ := hm'.final rfl
          subst e1 e2 e3 e4
          exact .both rfl rfl (by simpa using hys) ⟨rfl, .inl rfl⟩
        · rcases hcase with hc | ⟨hc, ho, hq⟩
          · exact absurd hc hret
          · have hlen := hys.length
            cases hp : p.failed with
            | true =>
              have hy : y = none := by
                cases hm with
                | one hst _ _ =>
                  cases hst with
                  | raised => rfl
                  | fails _ _ hev =>
                    rcases hev with hev | ⟨_, hev, _⟩ <;> rw [hev] <;> rfl
                  | _ => cases hp
                | layer _ _ _ hst _ =>
                  cases hst with
                  | fails _ _ hev => rcases hev with hev | ⟨_, hev, _⟩ <;> rw [hev] <;> rfl
                  | _ => cases hp
              subst hy
              refine .left hp (by simp [hlen]) ?_
              simp only [Option.toList_none, List.append_nil]
              exact hys.compatible.longer (by omega)
            | false =>
              cases hp' : pc'.failed with
              | true =>
                have hy : y' = none := by
                  cases hm' with
                  | one hst _ _ =>
                    cases hst with
                    | raised => rfl
                    | fails _ _ hev =>
                      rcases hev with hev | ⟨_, hev, _⟩ <;> rw [hev] <;> rfl
                    | _ => cases hp'
                  | layer _ _ _ hst _ =>
                    cases hst with
                    | fails _ _ hev => rcases hev with hev | ⟨_, hev, _⟩ <;> rw [hev] <;> rfl
                    | _ => cases hp'
                subst hy
                refine .right hp' (by simp [hlen]) ?_
                simp only [Option.toList_none, List.append_nil]
                exact hys.compatible.longer' (by omega)
              | false =>
                rw [← hq] at hc
                obtain ⟨h3, h4⟩ := macro_sim hc ho hm hm' hp hp'
                rw [hq] at h3
                exact .both hp hp' (hys.append h4) h3
      | left hf hl hc =>
        obtain ⟨e1, e2⟩ := hm.final (failed_final hf)
        subst e1 e2
        refine .left hf (by simp; omega) ?_
        simp only [Option.toList_none, List.append_nil]
        exact hc.longer hl
      | right hf hl hc =>
        obtain ⟨e1, e2⟩ := hm'.final (failed_final hf)
        subst e1 e2
        refine .right hf (by simp; omega) ?_
        simp only [Option.toList_none, List.append_nil]
        exact hc.longer' hl

theorem returned_final : (PC.returned : PC α).final = true := rfl

/-- Two runs, however far they have come. -/
theorem Big.compare {q : List (List α)}
    (hw : ∀ ys ys', SameSets ys ys' → w ys' = w ys)
    (hstart : ∀ t t', s0.start a = (t, .ok abs) → s0'.start a = (t', .ok abs) →
      Corr a (NotTogether q) t t' ∧ OrderFree t a ∧ t.queue = q) {n n' : Nat} {ys ys'}
    (h1 : Big w a s0 abs n ys s pc) (h2 : Big w a s0' abs n' ys' s' pc') :
    Compatible ys ys' ∧ (pc = .returned → pc'.failed = false → ys'.length ≤ ys.length) ∧
      (pc' = .returned → pc.failed = false → ys.length ≤ ys'.length) := by
  rcases Nat.le_total n n' with hn | hn
  · obtain ⟨y1, y2, s1, pc1, h3, h4, h5⟩ := h2.prefix n hn
    subst h4
    cases h1.pair hw hstart h3 with
    | both hf hf' hys haf =>
      have hl := hys.length
      refine ⟨hys.compatible.longer (by omega), ?_, ?_⟩
      · intro hr _
        obtain ⟨e, _⟩ := haf
        rw [hr] at e
        rw [(h5 (by rw [e]; rfl)).1]
        simp; omega
      · intro _ _; simp; omega
    | left hf hl hc =>
      refine ⟨hc.longer hl, ?_, ?_⟩
      · intro hr; rw [hr] at hf; cases hf
      · intro _ hp; rw [hf] at hp; cases hp
    | right hf hl hc =>
      obtain ⟨e1, e2⟩ := h5 (failed_final hf)
      subst e1 e2
      rw [List.append_nil]
      refine ⟨hc, ?_, ?_⟩
      · intro _ hp; rw [hf] at hp; cases hp
      · intro hr; rw [hr] at hf; cases hf
  · obtain ⟨y1, y2, s1, pc1, h3, h4, h5⟩ := h1.prefix n' hn
    subst h4
    cases h3.pair hw hstart h2 with
    | both hf hf' hys haf =>
      have hl := hys.length
      refine ⟨hys.compatible.longer' (by omega), ?_, ?_⟩
      · intro _ _; simp; omega
      · intro hr _
        obtain ⟨e, _⟩ := haf
        rw [hr] at e
        rw [(h5 (by rw [← e]; rfl)).1]
        simp; omega
    | left hf hl hc =>
      obtain ⟨e1, e2⟩ := h5 (failed_final hf)
      subst e1 e2
      rw [List.append_nil]
      refine ⟨hc, ?_, ?_⟩
      · intro hr; rw [hr] at hf; cases hf
      · intro _ hp; rw [hf] at hp; cases hp
    | right hf hl hc =>
      refine ⟨hc.longer' hl, ?_, ?_⟩
      · intro _ hp; rw [hf] at hp; cases hp
      · intro hr; rw [hr] at hf; cases hf

end GS
