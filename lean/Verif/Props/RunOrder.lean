import Verif.Props.Run
/-!
# C57: a pass considers every consideration set
-/

set_option linter.unusedSectionVars false

namespace GS
open Spec Props
variable {α κ W β : Type _} [DecidableEq α] [DecidableEq κ]
variable {E : Sys α κ W → Sys α κ W → Prop} {a : RunArgs α κ W} {s0 s : Sys α κ W}
variable {abs : Bool} {h : History α κ W} {pc : PC α}

theorem setsConsidered_append (h1 h2 : History α κ W) :
    setsConsidered (h1 ++ h2) = setsConsidered h1 ++ setsConsidered h2 := by
  unfold setsConsidered; rw [List.filterMap_append]

theorem setsConsidered_snoc (h : History α κ W) (s s' : Sys α κ W) (ev : Event α) :
    setsConsidered (h ++ [⟨s, ev, s'⟩]) = setsConsidered h ++
      (match ev with | .consider i _ => [i] | _ => []) := by
  rw [setsConsidered_append]
  congr 1
  cases ev <;> simp [setsConsidered]

/-- What has been considered in the current pass, by program counter; `n` is the number
of consideration sets. -/
def ConsideredSoFar (E : Sys α κ W → Sys α κ W → Prop) (a : RunArgs α κ W) (s0 : Sys α κ W)
    (abs : Bool) (h : History α κ W) : PC α → Prop
  | .inner k _ => setsConsidered (currentPass h) = List.range k ∧ k ≤ s0.queue.length
  | .choosing c => setsConsidered (currentPass h) = List.range (c.idx + 1) ∧ c.idx < s0.queue.length
  | .yielded i _ => setsConsidered (currentPass h) = List.range (i + 1) ∧ i < s0.queue.length
  | .raised _ => True
  | _ => (∃ e ∈ h, e.ev = .passStart) → ∃ k, setsConsidered (currentPass h) = List.range k ∧
      k ≤ s0.queue.length ∧ (k < s0.queue.length →
        ∃ h' t s' ch, h = h' ++ t ∧ (∀ e ∈ t, e.ev ≠ .passStart) ∧
          Reach E a s0 abs h' s' (.inner k ch) ∧ Finished s' a)

theorem leaves_end {s : Sys α κ W} {a : RunArgs α κ W} {idx : Nat} {st}
    (hl : Leaves s a idx st) (hi : idx < s.queue.length) : Finished s a := by
  rcases hl with ⟨h, _⟩ | ⟨_, h⟩
  · rw [List.getElem?_eq_none_iff] at h; omega
  · exact h.finished

theorem Reach.considered (hr : Reach E a s0 abs h s pc) (hE : Keeps E (fun s => s.queue)) :
    ConsideredSoFar E a s0 abs h pc := by
  refine hr.ind (P := fun h s pc => ConsideredSoFar E a s0 abs h pc) ?_ ?_ ?_
  · rintro s _ ⟨e, he, _⟩; cases he
  · intro h s s' pc pc' ev hr ih hst
    have hq := hr.keepQueue hE
    cases hst with
    | pass => exact ⟨by simp [currentPass_snoc, setsConsidered], Nat.zero_le _⟩
    | stopSkip =>
      rintro ⟨e, he, hp⟩
      rw [ext_some] at he
      rcases List.mem_append.mp he with he | he
      · obtain ⟨k, h1, h2, h3⟩ := ih ⟨e, he, hp⟩
        refine ⟨k, by simp [currentPass_snoc, setsConsidered_snoc, h1], h2, fun hk => ?_⟩
        obtain ⟨h', t, s', ch, e1, e2, e3⟩ := h3 hk
        refine ⟨h', t ++ [⟨_, .stop, _⟩], s', ch, by rw [ext_some, e1, List.append_assoc], ?_, e3⟩
        intro x hx
        rcases List.mem_append.mp hx with hx | hx
        · exact e2 x hx
        · simp at hx; subst hx; simp
      · simp at he; subst he; cases hp
    | stopIncr =>
      rintro ⟨e, he, hp⟩
      rw [ext_some] at he
      rcases List.mem_append.mp he with he | he
      · obtain ⟨k, h1, h2, h3⟩ := ih ⟨e, he, hp⟩
        refine ⟨k, by simp [currentPass_snoc, setsConsidered_snoc, h1], h2, fun hk => ?_⟩
        obtain ⟨h', t, s', ch, e1, e2, e3⟩ := h3 hk
        refine ⟨h', t ++ [⟨_, .stop, _⟩], s', ch, by rw [ext_some, e1, List.append_assoc], ?_, e3⟩
        intro x hx
        rcases List.mem_append.mp hx with hx | hx
        · exact e2 x hx
        · simp at hx; subst hx; simp
      · simp at he; subst he; cases hp
    | passEnd hl =>
      intro _
      rw [ext_none]
      exact ⟨_, ih.1, ih.2, fun hk => ⟨h, [], s, _, by simp, by simp, hr, leaves_end hl (by rw [hq]; exact hk)⟩⟩
    | emptyYield hl =>
      intro _
      refine ⟨_, by simpa [currentPass_snoc, setsConsidered_snoc] using ih.1, ih.2, fun hk =>
        ⟨h, [⟨s, .emptyPass, _⟩], s, _, by rw [ext_some], by simp, hr, leaves_end hl (by rw [hq]; exact hk)⟩⟩
    | @consider idx changed st layer hl =>
      refine ⟨by simp [currentPass_snoc, setsConsidered_snoc, ih.1, List.range_succ], ?_⟩
      have := (List.getElem?_eq_some_iff.mp hl).1
      rw [hq] at this; exact this
    | again => exact ⟨by simpa using ih.1, ih.2⟩
    | skip => exact ⟨by simpa using ih.1, ih.2⟩
    | reject => exact ⟨by simpa using ih.1, ih.2⟩
    | add => exact ⟨by simpa [currentPass_snoc, setsConsidered_snoc] using ih.1, ih.2⟩
    | yield => exact ⟨by simpa [currentPass_snoc, setsConsidered_snoc] using ih.1, ih.2⟩
    | yieldAbs => exact ⟨by simpa [currentPass_snoc, setsConsidered_snoc] using ih.1, ih.2⟩
    | silent => exact ⟨by simpa [currentPass_snoc, setsConsidered_snoc] using ih.1, ih.2⟩
    | resume => exact ⟨by simpa using ih.1, ih.2⟩
    | resumeEmpty => rw [ext_none]; exact ih
    | returned => rw [ext_none]; exact ih
    | raised => trivial
    | fails => trivial
  · intro h s s' pc _ ih _ _; exact ih

/-- The last position considered, by program counter. -/
def LastConsidered : PC α → Nat → Prop
  | .inner i _, k => k = i
  | .choosing c, k => k = c.idx + 1
  | .yielded i _, k => k = i + 1
  | _, _ => True

theorem Reach.considered_range (hr : Reach E a s0 abs h s pc) (hE : Keeps E (fun s => s.queue)) :
    ∃ k, LastConsidered pc k ∧ setsConsidered (currentPass h) = List.range k ∧
      k ≤ s0.queue.length := by
  refine hr.ind (P := fun h _ pc => ∃ k, LastConsidered pc k ∧
    setsConsidered (currentPass h) = List.range k ∧ k ≤ s0.queue.length) ?_ ?_ ?_
  · intro s _; exact ⟨0, trivial, rfl, Nat.zero_le _⟩
  · intro h s s' pc pc' ev hr ih hst
    obtain ⟨k, hp, hl, hk⟩ := ih
    have hq := hr.keepQueue hE
    cases hst with
    | pass => exact ⟨0, rfl, by simp [currentPass_snoc, setsConsidered], Nat.zero_le _⟩
    | stopSkip => exact ⟨k, trivial, by simp [currentPass_snoc, setsConsidered_snoc, hl], hk⟩
    | stopIncr => exact ⟨k, trivial, by simp [currentPass_snoc, setsConsidered_snoc, hl], hk⟩
    | passEnd => exact ⟨k, trivial, by simpa using hl, hk⟩
    | emptyYield => exact ⟨k, trivial, by simp [currentPass_snoc, setsConsidered_snoc, hl], hk⟩
    | @consider idx changed st layer hlay =>
      cases hp
      refine ⟨_, rfl, by simp [currentPass_snoc, setsConsidered_snoc, hl, List.range_succ], ?_⟩
      have := (List.getElem?_eq_some_iff.mp hlay).1
      rw [hq] at this; exact this
    | again => exact ⟨k, hp, by simpa using hl, hk⟩
    | skip => exact ⟨k, hp, by simpa using hl, hk⟩
    | reject => exact ⟨k, hp, by simpa using hl, hk⟩
    | add => exact ⟨k, hp, by simp [currentPass_snoc, setsConsidered_snoc, hl], hk⟩
    | yield => exact ⟨k, hp, by simp [currentPass_snoc, setsConsidered_snoc, hl], hk⟩
    | yieldAbs => exact ⟨k, hp, by simp [currentPass_snoc, setsConsidered_snoc, hl], hk⟩
    | silent => exact ⟨k, hp, by simp [currentPass_snoc, setsConsidered_snoc, hl], hk⟩
    | resume => exact ⟨k, hp, by simpa using hl, hk⟩
    | resumeEmpty => exact ⟨k, trivial, by simpa using hl, hk⟩
    | returned => exact ⟨k, trivial, by simpa using hl, hk⟩
    | raised => exact ⟨k, trivial, by simpa using hl, hk⟩
    | fails h1 h2 hev =>
      rcases hev with rfl | ⟨rfl, rfl, _⟩
      · exact ⟨k, trivial, by simpa using hl, hk⟩
      · exact ⟨k, trivial, by simp [currentPass_snoc, setsConsidered_snoc, hl], hk⟩
  · intro h s s' pc _ ih _ _; exact ih

theorem currentPass_mid {h1 l : History α κ W} {p : Entry α κ W} (hp : p.ev = .passStart)
    (hl : ∀ e ∈ l, e.ev ≠ .passStart) : currentPass (h1 ++ p :: l) = l := by
  have := afterLast_append_of_none isPassStart (h1 ++ [p]) l
    (fun e he => by simpa [isPassStart] using hl e he)
  rw [List.append_assoc] at this
  rw [currentPass]
  rw [List.singleton_append] at this
  rw [this, afterLast_snoc]; simp [isPassStart, hp]

namespace Props

/-- C57: within a pass the consideration sets are considered in the order of the queue,
from the first on and without gaps, each of them as a whole. -/
theorem C57_in_order (hr : Reach E a s0 abs h s pc) (hE : Keeps E (fun s => s.queue))
    {h1 seg h2 : History α κ W} {p : Entry α κ W} (hh : h = h1 ++ p :: seg ++ h2)
    (hp : p.ev = .passStart) (hseg : ∀ e ∈ seg, e.ev ≠ .passStart) :
    (∃ k, setsConsidered seg = List.range k ∧ k ≤ s0.queue.length) ∧
    ∀ e ∈ seg, ∀ i layer, e.ev = .consider i layer → s0.queue[i]? = some layer := by
  constructor
  · obtain ⟨s', pc', hr1⟩ := hr.prefix hh
    obtain ⟨k, _, h1, h2⟩ := hr1.considered_range hE
    rw [currentPass_mid hp hseg] at h1
    exact ⟨k, h1, h2⟩
  · intro e he i layer hev
    obtain ⟨u, v, rfl⟩ := mem_split he
    obtain ⟨q, q', hq, hs, _⟩ := hr.entry (h1 ++ p :: u) e (v ++ h2) (by rw [hh]; simp)
    have hst := Sys.step_stepR hs
    generalize hx : some e.ev = ev at hst
    generalize e.after = sa at hst
    cases hst with
    | consider hl =>
      rw [hev] at hx; cases hx
      rw [← hq.keepQueue hE]; exact hl
    | fails _ _ h' =>
      rcases h' with rfl | ⟨_, rfl, _⟩
      · cases hx
      · rw [hev] at hx; cases hx
    | _ => first | cases hx | (rw [hev] at hx; cases hx)

/-- C57: a pass that is over (the next one has begun, or the run has returned) considered
all consideration sets, unless a termination condition was satisfied in between. -/
theorem C57_all_sets (hr : Reach E a s0 abs h s pc) (hE : Keeps E (fun s => s.queue))
    {h1 seg h2 : History α κ W} {p : Entry α κ W} (hh : h = h1 ++ p :: seg ++ h2)
    (hp : p.ev = .passStart) (hseg : ∀ e ∈ seg, e.ev ≠ .passStart)
    (hend : (∃ q rest, h2 = q :: rest ∧ q.ev = .passStart) ∨ (h2 = [] ∧ pc = .returned)) :
    setsConsidered seg = List.range s0.queue.length ∨
    ∃ seg' t s' k ch, seg = seg' ++ t ∧ setsConsidered seg = List.range k ∧
      k < s0.queue.length ∧
      Reach E a s0 abs (h1 ++ p :: seg') s' (.inner k ch) ∧ Finished s' a := by
  have key : ∀ s' pc', Reach E a s0 abs (h1 ++ p :: seg) s' pc' → (pc' = .outer ∨ pc' = .returned) →
      setsConsidered seg = List.range s0.queue.length ∨
      ∃ seg' t s' k ch, seg = seg' ++ t ∧ setsConsidered seg = List.range k ∧
        k < s0.queue.length ∧
        Reach E a s0 abs (h1 ++ p :: seg') s' (.inner k ch) ∧ Finished s' a := by
    intro s' pc' hr1 hpc
    have hc : ConsideredSoFar E a s0 abs (h1 ++ p :: seg) .outer := by
      have := hr1.considered hE
      rcases hpc with rfl | rfl <;> exact this
    obtain ⟨k, k1, k2, k3⟩ := hc ⟨p, by simp, hp⟩
    rw [currentPass_mid hp hseg] at k1
    by_cases hk : k < s0.queue.length
    · obtain ⟨h', t, s', ch, e1, e2, e3, e4⟩ := k3 hk
      right
      -- the tail lies within the segment
      rcases List.append_eq_append_iff.mp e1 with ⟨u, hu1, hu2⟩ | ⟨u, hu1, hu2⟩
      · cases u with
        | nil =>
          simp only [List.append_nil] at hu1
          rw [List.nil_append] at hu2
          exact absurd hp (e2 p (by rw [← hu2]; simp))
        | cons x u =>
          rw [List.cons_append, List.cons.injEq] at hu2
          obtain ⟨rfl, rfl⟩ := hu2
          exact ⟨u, t, s', k, ch, rfl, k1, hk, hu1 ▸ e3, e4⟩
      · exact absurd hp (e2 p (by rw [hu2]; simp))
    · left; rw [k1]; congr 1; omega
  rcases hend with ⟨q, rest, rfl, hq⟩ | ⟨rfl, rfl⟩
  · obtain ⟨pc', pc'', hr1, hs, _⟩ := hr.entry (h1 ++ p :: seg) q rest hh
    refine key _ _ hr1 (.inl ?_)
    have hst := Sys.step_stepR hs
    rw [hq] at hst
    generalize hx : some Event.passStart = ev at hst
    generalize q.after = sa at hst
    cases hst with
    | pass => rfl
    | fails _ _ h' => rcases h' with rfl | ⟨_, rfl, _⟩ <;> cases hx
    | _ => cases hx
  · rw [List.append_nil] at hh
    exact key _ _ (hh ▸ hr) (.inr rfl)

example : setsConsidered (currentPass (demoAfter 40).1) = [0, 1] ∧ demo.queue.length = 2 ∧
    (demoAfter 40).2.2 = .returned := by
  refine ⟨by decide +kernel, by decide +kernel, by decide +kernel⟩

end Props
end GS
