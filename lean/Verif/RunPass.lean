import Verif.RunFix
/-!
# Invariants of runs: what happens within a pass
-/

set_option linter.unusedSectionVars false

namespace GS
open Spec
variable {α κ W β : Type _} [DecidableEq α] [DecidableEq κ]
variable {E : Sys α κ W → Sys α κ W → Prop} {a : RunArgs α κ W} {s0 s : Sys α κ W}
variable {abs : Bool} {h : History α κ W} {pc : PC α}

/-! ## A node is selected at most once per pass -/

/-- The nodes of the consideration sets before position `i`. -/
def Below (q : List (List α)) (i : Nat) (n : α) : Prop := ∃ j, j < i ∧ At q j n

/-- Selections `l` of the current pass. -/
def PassNodup (q : List (List α)) (l : List α) : PC α → Prop
  | .inner i _ => l.Nodup ∧ ∀ n ∈ l, Below q i n
  | .choosing c => ∃ b, l = b ++ c.exec ∧ b.Nodup ∧ ∀ n ∈ b, Below q c.idx n
  | .yielded i _ => l.Nodup ∧ ∀ n ∈ l, Below q (i + 1) n
  | _ => l.Nodup

theorem at_unique {q : List (List α)} (hq : q.flatten.Nodup) {i j : Nat} {n : α}
    (hi : At q i n) (hj : At q j n) : i = j := by
  induction q generalizing i j with
  | nil => obtain ⟨l, hl, _⟩ := hi; simp at hl
  | cons x q ih =>
    rw [List.flatten_cons, List.nodup_append] at hq
    obtain ⟨_, h2, h3⟩ := hq
    obtain ⟨l, hl, hnl⟩ := hi
    obtain ⟨l', hl', hnl'⟩ := hj
    cases i with
    | zero =>
      cases j with
      | zero => rfl
      | succ j =>
        simp at hl hl'
        subst hl
        exact absurd rfl (h3 n hnl n (List.mem_flatten.2 ⟨l', List.mem_of_getElem? hl', hnl'⟩))
    | succ i =>
      cases j with
      | zero =>
        simp at hl hl'
        subst hl'
        exact absurd rfl (h3 n hnl' n (List.mem_flatten.2 ⟨l, List.mem_of_getElem? hl, hnl⟩))
      | succ j =>
        simp at hl hl'
        rw [ih h2 ⟨l, hl, hnl⟩ ⟨l', hl', hnl'⟩]

theorem selections_cur_snoc (h : History α κ W) (s s' : Sys α κ W) (x : Event α) :
    selections (currentPass (h ++ [⟨s, x, s'⟩])) =
      if x = .passStart then [] else selections (currentPass h) ++ x.add?.toList := by
  rw [currentPass_snoc]
  by_cases hx : x = .passStart
  · simp [hx, selections_nil]
  · simp only [hx, if_false]; rw [selections_snoc]

theorem yields_cur_snoc (h : History α κ W) (s s' : Sys α κ W) (x : Event α) :
    yields (currentPass (h ++ [⟨s, x, s'⟩])) =
      if x = .passStart then [] else yields (currentPass h) ++ x.yield?.toList := by
  rw [currentPass_snoc]
  by_cases hx : x = .passStart
  · simp [hx, yields_nil]
  · simp only [hx, if_false]; rw [yields_snoc]

theorem PassNodup.close {q : List (List α)} (hq : q.flatten.Nodup) {l : List α} {c : Choice α}
    (hp : PassNodup q l (.choosing c)) (ci : ChoiceInv h s c) (hqs : s.queue = q) :
    l.Nodup ∧ ∀ n ∈ l, Below q (c.idx + 1) n := by
  obtain ⟨b, rfl, hb, hbel⟩ := hp
  have hex : ∀ n ∈ c.exec, At q c.idx n := fun n hn =>
    ⟨c.layer, by rw [← hqs]; exact ci.queue, ci.sub n hn⟩
  constructor
  · rw [List.nodup_append]
    refine ⟨hb, ci.nodup, ?_⟩
    rintro x hx y hy rfl
    obtain ⟨j, hj, hat⟩ := hbel x hx
    have := at_unique hq hat (hex x hy)
    omega
  · intro n hn
    rcases List.mem_append.1 hn with hn | hn
    · obtain ⟨j, hj, hat⟩ := hbel n hn; exact ⟨j, by omega, hat⟩
    · exact ⟨c.idx, by omega, hex n hn⟩

theorem Reach.passNodup (hr : Reach E a s0 abs h s pc) (hE : Keeps E (fun s => s.queue))
    (hq : s0.queue.flatten.Nodup) : PassNodup s0.queue (selections (currentPass h)) pc := by
  refine hr.ind (P := fun h _ pc => PassNodup s0.queue (selections (currentPass h)) pc) ?_ ?_ ?_
  · intro s _; exact List.nodup_nil
  · intro h s s' pc pc' ev hr ih hst
    have hqs := hr.keepQueue hE
    have toN : ∀ pc, Reach E a s0 abs h s pc →
        PassNodup s0.queue (selections (currentPass h)) pc → (selections (currentPass h)).Nodup := by
      intro pc hr hp
      cases pc with
      | inner => exact hp.1
      | choosing c => exact (hp.close hq (hr.choice c rfl) hqs).1
      | yielded => exact hp.1
      | _ => exact hp
    cases hst with
    | pass => rw [ext_some, selections_cur_snoc]; exact ⟨List.nodup_nil, by simp⟩
    | stopSkip => rw [ext_some, selections_cur_snoc]; simpa [Event.add?, PassNodup] using ih
    | stopIncr => rw [ext_some, selections_cur_snoc]; simpa [Event.add?, PassNodup] using ih
    | passEnd => rw [ext_none]; exact ih.1
    | emptyYield => rw [ext_some, selections_cur_snoc]; simpa [Event.add?, PassNodup] using ih.1
    | consider =>
      rw [ext_some, selections_cur_snoc]
      refine ⟨selections (currentPass h), by simp [Event.add?], ih.1, ih.2⟩
    | again => rw [ext_none]; exact ih
    | skip => rw [ext_none]; exact ih
    | reject => rw [ext_none]; exact ih
    | @add c n ns cond st f u ht hn =>
      rw [ext_some, selections_cur_snoc]
      obtain ⟨b, h1, h2, h3⟩ := ih
      exact ⟨b, by simp [Event.add?, h1], h2, h3⟩
    | @yield c =>
      rw [ext_some, selections_cur_snoc]
      simpa [Event.add?, PassNodup] using ih.close hq (hr.choice c rfl) hqs
    | @yieldAbs c =>
      rw [ext_some, selections_cur_snoc]
      simpa [Event.add?, PassNodup] using ih.close hq (hr.choice c rfl) hqs
    | @silent c =>
      rw [ext_some, selections_cur_snoc]
      simpa [Event.add?, PassNodup] using ih.close hq (hr.choice c rfl) hqs
    | resume => rw [ext_none]; exact ih
    | resumeEmpty => rw [ext_none]; exact ih
    | returned => rw [ext_none]; exact ih
    | raised => rw [ext_none]; exact ih
    | fails hp hfr hev =>
      have := toN _ hr ih
      rcases hev with rfl | ⟨rfl, rfl, _⟩
      · rw [ext_none]; exact this
      · rw [ext_some, selections_cur_snoc]; simpa [Event.add?, PassNodup] using this
  · intro h s s' pc _ ih _ _; exact ih

theorem PassNodup.nodup (hr : Reach E a s0 abs h s pc) (hE : Keeps E (fun s => s.queue))
    (hq : s0.queue.flatten.Nodup) : (selections (currentPass h)).Nodup := by
  have hp := hr.passNodup hE hq
  cases pc with
  | inner => exact hp.1
  | choosing c => exact (hp.close hq (hr.choice c rfl) (hr.keepQueue hE)).1
  | yielded => exact hp.1
  | _ => exact hp

/-! ## Empty sets -/

/-- Sets `y` and selections `l` of the current pass, outside absolute-time mode. -/
def PassSets (h : History α κ W) (y : List (List α)) (l : List α) : PC α → Prop
  | .outer => h = [] ∨ (l = [] ∧ y = [[]]) ∨ (l ≠ [] ∧ [] ∉ y)
  | .returned => yields h = [] ∨ (l = [] ∧ y = [[]]) ∨ (l ≠ [] ∧ [] ∉ y)
  | .inner _ ch => [] ∉ y ∧ (ch = true ↔ y ≠ []) ∧ l = y.flatten
  | .choosing c => [] ∉ y ∧ (c.changed = true ↔ y ≠ []) ∧ l = y.flatten ++ c.exec
  | .yielded _ ch => [] ∉ y ∧ (ch = true ↔ y ≠ []) ∧ l = y.flatten
  | .yieldedEmpty => l = [] ∧ y = [[]]
  | .raised _ => yields h = [] ∨ (l = [] ∧ y = [[]]) ∨ [] ∉ y

theorem flatten_ne_nil {y : List (List α)} (h1 : [] ∉ y) (h2 : y ≠ []) : y.flatten ≠ [] := by
  cases y with
  | nil => exact absurd rfl h2
  | cons x y =>
    have : x ≠ [] := fun e => h1 (by simp [e])
    simp [this]

theorem Reach.passSets (hr : Reach E a s0 false h s pc) :
    PassSets h (yields (currentPass h)) (selections (currentPass h)) pc := by
  refine hr.ind (P := fun h _ pc =>
    PassSets h (yields (currentPass h)) (selections (currentPass h)) pc) ?_ ?_ ?_
  · intro s _; exact .inl rfl
  · intro h s s' pc pc' ev hr ih hst
    cases hst with
    | pass =>
      rw [ext_some, selections_cur_snoc, yields_cur_snoc]
      exact ⟨by simp, by simp, rfl⟩
    | stopSkip =>
      rw [ext_some, selections_cur_snoc, yields_cur_snoc]
      rcases ih with rfl | ih | ih
      · exact .inl (by simp [yields, Event.yield?])
      · exact .inr (.inl (by simpa [Event.add?, Event.yield?] using ih))
      · exact .inr (.inr (by simpa [Event.add?, Event.yield?] using ih))
    | stopIncr =>
      rw [ext_some, selections_cur_snoc, yields_cur_snoc]
      rcases ih with rfl | ih | ih
      · exact .inl (by simp [yields, Event.yield?])
      · exact .inr (.inl (by simpa [Event.add?, Event.yield?] using ih))
      · exact .inr (.inr (by simpa [Event.add?, Event.yield?] using ih))
    | passEnd hl hch hc =>
      rw [ext_none]
      obtain ⟨h1, h2, h3⟩ := ih
      refine .inr (.inr ⟨?_, h1⟩)
      rw [h3]; exact flatten_ne_nil h1 (h2.1 (by simpa using hch))
    | emptyYield =>
      rw [ext_some, selections_cur_snoc, yields_cur_snoc]
      obtain ⟨h1, h2, h3⟩ := ih
      have : yields (currentPass h) = [] := Classical.byContradiction fun hne =>
        absurd (h2.2 hne) (by simp)
      rw [this] at h3
      refine ⟨?_, ?_⟩
      · simp [Event.add?, h3]
      · simp [Event.yield?, this]
    | consider =>
      rw [ext_some, selections_cur_snoc, yields_cur_snoc]
      obtain ⟨h1, h2, h3⟩ := ih
      exact ⟨by simpa [Event.yield?] using h1, by simpa [Event.yield?] using h2, by
        simp [Event.yield?, Event.add?, h3]⟩
    | again => rw [ext_none]; exact ih
    | skip => rw [ext_none]; exact ih
    | reject => rw [ext_none]; exact ih
    | add =>
      rw [ext_some, selections_cur_snoc, yields_cur_snoc]
      obtain ⟨h1, h2, h3⟩ := ih
      exact ⟨by simpa [Event.yield?] using h1, by simpa [Event.yield?] using h2, by
        simp [Event.yield?, Event.add?, h3]⟩
    | yield ht hag ha hne hx =>
      rw [ext_some, selections_cur_snoc, yields_cur_snoc]
      obtain ⟨h1, h2, h3⟩ := ih
      refine ⟨?_, by simp [Event.yield?], by simp [Event.yield?, Event.add?, h3]⟩
      simp only [Event.yield?, Option.toList_some, List.mem_append, List.mem_singleton, not_or,
        reduceCtorEq, if_false]
      exact ⟨h1, fun e => hne e.symm⟩
    | yieldAbs ht hag ha => cases ha
    | silent ht hag ha hne =>
      rw [ext_some, selections_cur_snoc, yields_cur_snoc]
      obtain ⟨h1, h2, h3⟩ := ih
      exact ⟨by simpa [Event.yield?] using h1, by simpa [Event.yield?] using h2, by
        simp [Event.yield?, Event.add?, h3, hne]⟩
    | resume => rw [ext_none]; exact ih
    | resumeEmpty => rw [ext_none]; exact .inr (.inl ih)
    | returned => rw [ext_none]; exact ih
    | raised => rw [ext_none]; exact ih
    | fails hp hfr hev =>
      have key : yields h = [] ∨
          (selections (currentPass h) = [] ∧ yields (currentPass h) = [[]]) ∨
          [] ∉ yields (currentPass h) := by
        cases pc with
        | outer =>
          rcases ih with rfl | ih | ih
          · exact .inl rfl
          · exact .inr (.inl ih)
          · exact .inr (.inr ih.2)
        | inner => exact .inr (.inr ih.1)
        | choosing => exact .inr (.inr ih.1)
        | yielded => exact .inr (.inr ih.1)
        | yieldedEmpty => exact .inr (.inl ih)
        | returned => cases hp
        | raised => cases hp
      rcases hev with rfl | ⟨rfl, rfl, _⟩
      · rw [ext_none]; exact key
      · rw [ext_some, selections_cur_snoc, yields_cur_snoc]
        rcases key with key | key | key
        · exact .inl (by rw [yields_snoc, key]; simp [Event.yield?])
        · exact .inr (.inl (by simpa [Event.add?, Event.yield?] using key))
        · exact .inr (.inr (by simpa [Event.add?, Event.yield?] using key))
  · intro h s s' pc hr ih hp he
    cases pc with
    | outer => simp [PC.suspended] at hp
    | returned => simp [PC.suspended] at hp
    | raised => simp [PC.suspended] at hp
    | _ => exact ih

/-! ## Yields and prefixes of the history -/

/-- Every yielded set belongs to an entry after which the generator is suspended and no
selection is pending. -/
theorem Reach.yieldEntry (hr : Reach E a s0 abs h s pc) {l1 l2 : List (List α)} {x : List α}
    (hy : yields h = l1 ++ x :: l2) :
    ∃ h1 e h2, h = h1 ++ e :: h2 ∧ yields h1 = l1 ∧ e.ev.yield? = some x ∧ yields h2 = l2 ∧
      selections (h1 ++ [e]) = (l1 ++ [x]).flatten := by
  have : ∃ h1 e h2, h = h1 ++ e :: h2 ∧ yields h1 = l1 ∧ e.ev.yield? = some x ∧ yields h2 = l2 := by
    unfold yields at hy ⊢
    obtain ⟨h1, h', rfl, hh1, hh'⟩ := List.filterMap_eq_append_iff.1 hy
    obtain ⟨k1, e, k2, rfl, hk1, he, hk2⟩ := List.filterMap_eq_cons_iff.1 hh'
    refine ⟨h1 ++ k1, e, k2, by simp, ?_, he, hk2⟩
    rw [List.filterMap_append, hh1]
    have : k1.filterMap (fun e => e.ev.yield?) = [] := by
      rw [List.filterMap_eq_nil_iff]; exact hk1
    rw [this, List.append_nil]
  obtain ⟨h1, e, h2, hh, hy1, he, hy2⟩ := this
  refine ⟨h1, e, h2, hh, hy1, he, hy2, ?_⟩
  obtain ⟨p, p', _, hs, hr'⟩ := hr.entry h1 e h2 hh
  obtain ⟨r, hp, hsel⟩ := hr'.pending
  have hst := Sys.step_stepR hs
  have hr0 : r = [] := by
    generalize hev : some e.ev = ev at hst
    generalize e.after = sa at hst
    cases hst with
    | emptyYield => exact hp
    | yield => exact hp
    | yieldAbs => exact hp
    | silent => exact hp
    | fails _ _ hx =>
      rcases hx with rfl | ⟨_, rfl, _⟩
      · cases hev
      · injection hev with hev; rw [hev] at he; simp [Event.yield?] at he
    | _ =>
      first
      | exact hp
      | cases hev
      | (injection hev with hev; rw [hev] at he; simp [Event.yield?] at he)
  rw [hsel, hr0, List.append_nil, yields_snoc, hy1, he]
  simp

/-- Every yielded set is duplicate-free. -/
theorem Reach.yields_nodup (hr : Reach E a s0 abs h s pc) : ∀ x ∈ yields h, x.Nodup := by
  intro x hx
  obtain ⟨l1, l2, hl⟩ := List.append_of_mem hx
  obtain ⟨h1, e, h2, hh, _, he, _, _⟩ := hr.yieldEntry hl
  obtain ⟨p, p', hr1, hs, _⟩ := hr.entry h1 e h2 hh
  have hst := Sys.step_stepR hs
  generalize hev : some e.ev = ev at hst
  generalize e.after = sa at hst
  cases hst with
  | emptyYield => injection hev with hev; rw [hev] at he; simp [Event.yield?] at he; subst he; simp
  | @yield c =>
    injection hev with hev; rw [hev] at he; simp [Event.yield?] at he; subst he
    exact (hr1.choice c rfl).nodup
  | @yieldAbs c =>
    injection hev with hev; rw [hev] at he; simp [Event.yield?] at he; subst he
    exact (hr1.choice c rfl).nodup
  | silent => injection hev with hev; rw [hev] at he; simp [Event.yield?] at he
  | fails _ _ hx =>
    rcases hx with rfl | ⟨_, rfl, _⟩
    · cases hev
    · injection hev with hev; rw [hev] at he; simp [Event.yield?] at he
  | _ =>
    first
    | cases hev
    | (injection hev with hev; rw [hev] at he; simp [Event.yield?] at he)

theorem count_flatten_sets {l : List (List α)} (h : ∀ x ∈ l, x.Nodup) (n : α) :
    l.flatten.count n = setsWith n l := by
  induction l with
  | nil => rfl
  | cons x l ih =>
    have ih := ih (fun y hy => h y (by simp [hy]))
    have hx := h x (by simp)
    simp only [List.flatten_cons, List.count_append, ih, setsWith, List.countP_cons]
    by_cases hn : n ∈ x
    · have e : x.count n = 1 :=
        Nat.le_antisymm (List.nodup_iff_count.1 hx n) (List.count_pos_iff.2 hn)
      simp [hn, e]; omega
    · have e : x.count n = 0 := List.count_eq_zero.2 hn
      simp [hn, e]

end GS
