import Verif.ReferenceRun
/-!
# The reference scheduler yields what runs yield
-/

set_option linter.unusedSectionVars false

namespace GS
open Spec TimeScale
variable {α κ W : Type _} [DecidableEq α] [DecidableEq κ]
variable {w : List (List α) → World α κ W} {a : RunArgs α κ W} {s0 s : Sys α κ W}
variable {h : History α κ W} {pc : PC α} {runs : List (List (List (List α)))}
variable {abs : Bool} {R : α → Past α → Bool} {T : Past α → Bool}

/-- The rules `R` and `T` agree with the conditions of the scheduler. -/
structure Fits (abs : Bool) (w : List (List α) → World α κ W) (a : RunArgs α κ W) (s0 : Sys α κ W)
    (runs : List (List (List (List α)))) (R : α → Past α → Bool) (T : Past α → Bool) : Prop where
  node : ∀ {h s c ps y n cond b}, Scripted w a s0 abs h s (.choosing c) →
    passYields h = ps ++ [y] → n ∈ c.layer → Dict.get? s.conds n = some cond →
    (eval s.toView a.id cond s.store).1 = .ok b →
    R n ⟨runs, ps, y, c.exec⟩ = b
  ends : ∀ {h s pc p st}, Scripted w a s0 abs h s pc → PastAt runs h none p pc →
    (Going s a st → T p = false) ∧ (Done s a st → T p = true)

/-- The reference scheduler up to the current set of the current pass. -/
structure RefPass (abs : Bool) (R : α → Past α → Bool) (T : Past α → Bool) (q : List (List α))
    (runs : List (List (List (List α)))) (h : History α κ W) (ps : List (List (List α)))
    (y : List (List α)) (idx : Nat) (ch : Bool) : Prop where
  py : passYields h = ps ++ [y]
  ref : reference abs R T q ps.length ⟨runs, [], [], []⟩ = ⟨runs, ps, [], []⟩
  go : T ⟨runs, ps, [], []⟩ = false
  pass : passFrom abs R T q ⟨runs, ps, [], []⟩ = passFrom abs R T (q.drop idx) ⟨runs, ps, y, []⟩
  ch : abs = false → (ch = true ↔ y ≠ [])

/-- The reference scheduler at each point of the run. -/
def RefAt (abs : Bool) (R : α → Past α → Bool) (T : Past α → Bool) (q : List (List α))
    (runs : List (List (List (List α)))) (h : History α κ W) : PC α → Prop
  | .outer | .yieldedEmpty =>
    reference abs R T q (passYields h).length ⟨runs, [], [], []⟩ = ⟨runs, passYields h, [], []⟩
  | .returned =>
    reference abs R T q (passYields h).length ⟨runs, [], [], []⟩ = ⟨runs, passYields h, [], []⟩ ∧
      T ⟨runs, passYields h, [], []⟩ = true
  | .inner idx ch => ∃ ps y, RefPass abs R T q runs h ps y idx ch
  | .yielded idx ch => ∃ ps y, RefPass abs R T q runs h ps y (idx + 1) ch
  | .choosing c => ∃ ps y, RefPass abs R T q runs h ps y c.idx c.changed ∧
      T ⟨runs, ps, y, []⟩ = false ∧
      ∃ k, choice R c.layer ⟨runs, ps, y, []⟩ =
          (goRound R c.layer k (goThrough R c.todo ⟨runs, ps, y, c.exec⟩)).next ∧
        c.layer.length + (if c.again then 1 else 0) ≤ c.exec.length + k ∧
        (c.again = false → ∀ d, c.layer = d ++ c.todo → ∀ n ∈ d,
          n ∈ c.exec ∨ R n ⟨runs, ps, y, c.exec⟩ = false)
  | .raised _ => yields h <+:
      (reference abs R T q (passYields h).length ⟨runs, [], [], []⟩).before.flatten

theorem nodup_length_le {l m : List α} (hl : l.Nodup) (hs : ∀ x ∈ l, x ∈ m) : l.length ≤ m.length := by
  induction l generalizing m with
  | nil => simp
  | cons x l ih =>
    obtain ⟨h1, h2⟩ := List.nodup_cons.1 hl
    have hx := hs x (by simp)
    have := ih (m := m.erase x) h2 fun y hy =>
      (List.mem_erase_of_ne (fun e : y = x => h1 (by rw [← e]; exact hy))).2 (hs y (by simp [hy]))
    rw [List.length_erase_of_mem hx] at this
    have : 0 < m.length := List.length_pos_of_mem hx
    simp; omega

theorem RefPass.close {q : List (List α)} {ps : List (List (List α))} {y : List (List α)} {idx : Nat}
    {ch : Bool} (hp : RefPass abs R T q runs h ps y idx ch)
    (hl : passFrom abs R T (q.drop idx) ⟨runs, ps, y, []⟩ = ⟨runs, ps, y, []⟩) :
    reference abs R T q (ps.length + 1) ⟨runs, [], [], []⟩ =
      ⟨runs, ps ++ [if y = [] ∧ abs = false then [[]] else y], [], []⟩ := by
  rw [reference_succ, hp.ref, hp.go, hp.pass, hl]
  simp [closePass]

/-- The sets yielded so far are the first ones of the reference scheduler. -/
theorem RefPass.prefix {q : List (List α)} {ps : List (List (List α))} {y : List (List α)} {idx : Nat}
    {ch : Bool} (hp : RefPass abs R T q runs h ps y idx ch) :
    (passYields h).flatten <+:
      (reference abs R T q (passYields h).length ⟨runs, [], [], []⟩).before.flatten := by
  rw [hp.py]
  have e : (ps ++ [y]).length = ps.length + 1 := by simp
  rw [e, reference_succ, hp.ref, hp.go, hp.pass]
  obtain ⟨h1, h2, h3, h4⟩ := passFrom_frame (abs := abs) (R := R) (T := T) (q.drop idx) ⟨runs, ps, y, []⟩
  simp only [Bool.false_eq_true, if_false, closePass, h2, List.flatten_append, List.flatten_singleton]
  rw [List.prefix_append_right_inj]
  split
  · rename_i hn
    rw [hn.1] at h4
    have : y = [] := List.prefix_nil.1 h4
    rw [this]; exact List.nil_prefix
  · exact h4

theorem RefAt.prefix {q : List (List α)} (hf : (passYields h).flatten = yields h)
    (hr : RefAt abs R T q runs h pc) :
    yields h <+: (reference abs R T q (passYields h).length ⟨runs, [], [], []⟩).before.flatten := by
  cases pc with
  | outer => rw [show reference abs R T q _ _ = _ from hr, hf]; exact List.prefix_refl _
  | yieldedEmpty => rw [show reference abs R T q _ _ = _ from hr, hf]; exact List.prefix_refl _
  | returned => rw [hr.1, hf]; exact List.prefix_refl _
  | inner => obtain ⟨ps, y, hp⟩ := hr; rw [← hf]; exact hp.prefix
  | yielded => obtain ⟨ps, y, hp⟩ := hr; rw [← hf]; exact hp.prefix
  | choosing => obtain ⟨ps, y, hp, _⟩ := hr; rw [← hf]; exact hp.prefix
  | raised => exact hr

theorem RefPass.other {q : List (List α)} {ps : List (List (List α))} {y : List (List α)} {idx : Nat}
    {ch : Bool} (hp : RefPass abs R T q runs h ps y idx ch) {h' : History α κ W}
    (e : passYields h' = passYields h) : RefPass abs R T q runs h' ps y idx ch :=
  ⟨e.trans hp.py, hp.ref, hp.go, hp.pass, hp.ch⟩

theorem Spec.Scripted.refAt (hr : Scripted w a s0 abs h s pc) (hF : Fits abs w a s0 runs R T) :
    RefAt abs R T s0.queue runs h pc := by
  induction hr with
  | start hs => rfl
  | @step h s s' pc pc' ev hr hst ih =>
    have hst0 := hst
    have hst := Sys.step_stepR hst
    have hre := hr.reach
    have hq := hre.keepQueue (by rintro _ _ ⟨_, rfl⟩; rfl)
    have hflat := hre.passYields_flatten.1
    have hr' := Scripted.step hr hst0
    have other : ∀ x : Event α, x.yield? = none → x ≠ .passStart →
        passYields (h ++ (some x).toList.map fun x =>
          (⟨resumed w (yields h) s pc, x, s'⟩ : Entry α κ W)) = passYields h := by
      intro x h1 h2
      exact passYields_other h _ _ h1 h2
    have none_eq : (h ++ (none : Option (Event α)).toList.map fun x =>
          (⟨resumed w (yields h) s pc, x, s'⟩ : Entry α κ W)) = h := by simp
    have leaves : ∀ {s : Sys α κ W} {idx ch st ps y}, Scripted w a s0 abs h s (.inner idx ch) →
        s.queue = s0.queue →
        GS.Leaves s a idx st → RefPass abs R T s0.queue runs h ps y idx ch →
        passFrom abs R T (s0.queue.drop idx) ⟨runs, ps, y, []⟩ = ⟨runs, ps, y, []⟩ := by
      intro s idx ch st ps y hr hq hl hp
      rcases hl with ⟨hl, _⟩ | ⟨⟨l, hl⟩, hd⟩
      · rw [hq] at hl
        rw [List.drop_of_length_le (List.getElem?_eq_none_iff.1 hl)]
        rfl
      · rw [hq] at hl
        have : s0.queue.drop idx = l :: s0.queue.drop (idx + 1) := by
          obtain ⟨h1, h2⟩ := List.getElem?_eq_some_iff.1 hl
          rw [List.drop_eq_getElem_cons h1, h2]
        rw [this]
        have ht := (hF.ends (p := ⟨runs, ps, y, []⟩) hr ⟨ps, y, hp.py, rfl⟩).2 hd
        simp only [passFrom, ht, if_true]
    have hu : pc.suspended = false → resumed w (yields h) s pc = s := fun h => resumed_not h
    generalize hv : resumed w (yields h) s pc = u at hst other none_eq hu hr'
    cases hst with
    | pass hg hf =>
      have := hu rfl
      subst this
      have hT := (hF.ends (p := ⟨runs, passYields h, [], []⟩) hr ⟨rfl, rfl⟩).1 hg
      refine ⟨passYields h, [], ?_, ih, hT, rfl, by simp⟩
      exact passYields_passStart h _ _
    | stopSkip hd =>
      have := hu rfl
      subst this
      have hT := (hF.ends (p := ⟨runs, passYields h, [], []⟩) hr ⟨rfl, rfl⟩).2 hd
      unfold RefAt
      rw [other _ rfl (by simp)]
      exact ⟨ih, hT⟩
    | stopIncr hd =>
      have := hu rfl
      subst this
      have hT := (hF.ends (p := ⟨runs, passYields h, [], []⟩) hr ⟨rfl, rfl⟩).2 hd
      unfold RefAt
      rw [other _ rfl (by simp)]
      exact ⟨ih, hT⟩
    | @passEnd idx ch st c hl hch hc =>
      have := hu rfl
      subst this
      obtain ⟨ps, y, hp⟩ := ih
      have hy : ¬ (y = [] ∧ abs = false) := by
        rintro ⟨hy, ha⟩
        exact (hp.ch ha).1 (by simpa [ha] using hch) hy
      have := hp.close (leaves hr hq hl hp)
      rw [none_eq]
      unfold RefAt
      rw [hp.py, List.length_append, List.length_singleton, this, if_neg hy]
    | @emptyYield idx st l hl ha hx =>
      have := hu rfl
      subst this
      obtain ⟨ps, y, hp⟩ := ih
      have hy : y = [] := by
        refine Classical.byContradiction fun hy => ?_
        have := (hp.ch ha).2 hy; cases this
      have := hp.close (leaves hr hq hl hp)
      unfold RefAt
      have e : passYields (h ++ [⟨u, Event.emptyPass, (u.putStore st).putList a.id (l ++ [[]])⟩]) =
          ps ++ [[[]]] := by
        rw [passYields_yield h _ _ (y := []) rfl, hp.py, addToLast_snoc, hy]; rfl
      simp only [Option.toList_some, List.map_cons, List.map_nil]
      rw [e, List.length_append, List.length_singleton, this, if_pos ⟨hy, ha⟩]
    | @consider idx ch st layer hql hg =>
      have := hu rfl
      subst this
      obtain ⟨ps, y, hp⟩ := ih
      have hT := (hF.ends (p := ⟨runs, ps, y, []⟩) hr ⟨ps, y, hp.py, rfl⟩).1 hg
      refine ⟨ps, y, hp.other (other _ rfl (by simp)), hT, layer.length, rfl, ?_, fun _ d hd n hn => ?_⟩
      · simp
      · have hd : d = [] := List.append_left_eq_self.1 hd.symm
        rw [hd] at hn; cases hn
    | @again c ht hag =>
      have := hu rfl
      subst this
      obtain ⟨ps, y, hp, hT, k, h1, h2, h0⟩ := ih
      have ci := hre.choice c rfl
      have hlen := nodup_length_le ci.nodup ci.sub
      rw [none_eq]
      cases k with
      | zero => simp [hag] at h2; omega
      | succ k =>
        refine ⟨ps, y, hp, hT, k, ?_, ?_, fun _ d hd n hn => ?_⟩
        · rw [h1, ht]; rfl
        · simp [hag] at h2 ⊢; omega
        · have hd : d = [] := List.append_left_eq_self.1 hd.symm
          rw [hd] at hn; cases hn
    | @skip c n ns ht hn =>
      have := hu rfl
      subst this
      obtain ⟨ps, y, hp, hT, k, h1, h2, h0⟩ := ih
      rw [none_eq]
      refine ⟨ps, y, hp, hT, k, ?_, h2, fun hag d hd m hm => ?_⟩
      · rw [h1, ht]
        simp only [goThrough]
        rw [if_pos hn]
      · obtain ⟨d', hd'⟩ := (hre.choice c rfl).todo
        rw [ht] at hd'
        have e : d ++ ns = (d' ++ [n]) ++ ns := by rw [← hd, hd']; simp
        rw [List.append_cancel_right e] at hm
        rcases List.mem_append.1 hm with hm | hm
        · exact h0 hag d' (by rw [hd', ht]) m hm
        · rw [List.mem_singleton.1 hm]; exact .inl hn
    | @reject c n ns cond st ht hn hc he =>
      have := hu rfl
      subst this
      obtain ⟨ps, y, hp, hT, k, h1, h2, h0⟩ := ih
      have ci := hre.choice c rfl
      have hnl : n ∈ c.layer := by obtain ⟨d, hd⟩ := ci.todo; rw [hd, ht]; simp
      have hR := hF.node hr hp.py hnl hc (by rw [he])
      rw [none_eq]
      refine ⟨ps, y, hp, hT, k, ?_, h2, fun hag d hd m hm => ?_⟩
      · rw [h1, ht]
        simp only [goThrough]
        rw [if_neg hn, hR]; rfl
      · obtain ⟨d', hd'⟩ := (hre.choice c rfl).todo
        rw [ht] at hd'
        have e : d ++ ns = (d' ++ [n]) ++ ns := by rw [← hd, hd']; simp
        rw [List.append_cancel_right e] at hm
        rcases List.mem_append.1 hm with hm | hm
        · exact h0 hag d' (by rw [hd', ht]) m hm
        · rw [List.mem_singleton.1 hm]; exact .inr hR
    | @add c n ns cond st f u ht hn hc he =>
      have := hu rfl
      subst this
      obtain ⟨ps, y, hp, hT, k, h1, h2, h0⟩ := ih
      have ci := hre.choice c rfl
      have hnl : n ∈ c.layer := by obtain ⟨d, hd⟩ := ci.todo; rw [hd, ht]; simp
      have hR := hF.node hr hp.py hnl hc (by rw [he])
      refine ⟨ps, y, hp.other (other _ rfl (by simp)), hT, k, ?_, ?_, fun h => by cases h⟩
      · rw [h1, ht]
        simp only [goThrough]
        rw [if_neg hn, hR]; rfl
      · simp only [if_true, List.length_append, List.length_singleton]
        have : (0 : Nat) ≤ if c.again = true then 1 else 0 := Nat.zero_le _
        omega
    | @yield c l ht hag ha hne hx =>
      have := hu rfl
      subst this
      obtain ⟨ps, y, hp, hT, k, h1, h2, h0⟩ := ih
      have ci := hre.choice c rfl
      have hfix : goThrough R c.layer ⟨runs, ps, y, c.exec⟩ = ⟨runs, ps, y, c.exec⟩ := by
        exact goThrough_fix _ _ fun n hn => h0 hag c.layer (by rw [ht]; simp) n hn
      have hch : choice R c.layer ⟨runs, ps, y, []⟩ = c.exec := by
        rw [h1, ht]; simp only [goThrough]; rw [goRound_fix hfix]
      have hql := ci.queue
      rw [hq] at hql
      have hdrop : s0.queue.drop c.idx = c.layer :: s0.queue.drop (c.idx + 1) := by
        obtain ⟨h1, h2⟩ := List.getElem?_eq_some_iff.1 hql
        rw [List.drop_eq_getElem_cons h1, h2]
      refine ⟨ps, y ++ [c.exec], ?_, hp.ref, hp.go, ?_, fun _ => by simp⟩
      · simp only [Option.toList_some, List.map_cons, List.map_nil]
        rw [passYields_yield h _ _ (y := c.exec) rfl, hp.py, addToLast_snoc]
      · rw [hp.pass, hdrop]
        simp only [passFrom, hT, hch]
        simp [hne]
    | @yieldAbs c l ts ht hag ha =>
      have := hu rfl
      subst this
      obtain ⟨ps, y, hp, hT, k, h1, h2, h0⟩ := ih
      have ci := hre.choice c rfl
      have hfix : goThrough R c.layer ⟨runs, ps, y, c.exec⟩ = ⟨runs, ps, y, c.exec⟩ := by
        exact goThrough_fix _ _ fun n hn => h0 hag c.layer (by rw [ht]; simp) n hn
      have hch : choice R c.layer ⟨runs, ps, y, []⟩ = c.exec := by
        rw [h1, ht]; simp only [goThrough]; rw [goRound_fix hfix]
      have hql := ci.queue
      rw [hq] at hql
      have hdrop : s0.queue.drop c.idx = c.layer :: s0.queue.drop (c.idx + 1) := by
        obtain ⟨h1, h2⟩ := List.getElem?_eq_some_iff.1 hql
        rw [List.drop_eq_getElem_cons h1, h2]
      refine ⟨ps, y ++ [c.exec], ?_, hp.ref, hp.go, ?_, fun e => by rw [ha] at e; cases e⟩
      · simp only [Option.toList_some, List.map_cons, List.map_nil]
        rw [passYields_yield h _ _ (y := c.exec) rfl, hp.py, addToLast_snoc]
      · rw [hp.pass, hdrop]
        simp only [passFrom, hT, hch]
        simp [ha]
    | @silent c ht hag ha hne =>
      have := hu rfl
      subst this
      obtain ⟨ps, y, hp, hT, k, h1, h2, h0⟩ := ih
      have ci := hre.choice c rfl
      have hfix : goThrough R c.layer ⟨runs, ps, y, c.exec⟩ = ⟨runs, ps, y, c.exec⟩ := by
        exact goThrough_fix _ _ fun n hn => h0 hag c.layer (by rw [ht]; simp) n hn
      have hch : choice R c.layer ⟨runs, ps, y, []⟩ = c.exec := by
        rw [h1, ht]; simp only [goThrough]; rw [goRound_fix hfix]
      have hql := ci.queue
      rw [hq] at hql
      have hdrop : s0.queue.drop c.idx = c.layer :: s0.queue.drop (c.idx + 1) := by
        obtain ⟨h1, h2⟩ := List.getElem?_eq_some_iff.1 hql
        rw [List.drop_eq_getElem_cons h1, h2]
      refine ⟨ps, y, (other _ rfl (by simp)).trans hp.py, hp.ref, hp.go, ?_, hp.ch⟩
      rw [hp.pass, hdrop]
      simp only [passFrom, hT, hch, hne]
      simp [ha]
    | resume => rw [none_eq]; exact ih
    | resumeEmpty => rw [none_eq]; exact ih
    | returned => rw [none_eq]; exact ih
    | raised => rw [none_eq]; exact ih
    | fails _ _ hev =>
      have hpre := ih.prefix hflat
      rcases hev with rfl | ⟨rfl, rfl, _⟩
      · rw [none_eq]; exact hpre
      · unfold RefAt
        rw [other _ rfl (by simp)]
        have e : yields (h ++ (some Event.stop).toList.map fun x =>
            (⟨u, x, s'⟩ : Entry α κ W)) = yields h := by
          rw [yields_ext]; simp [Event.yield?]
        rw [e]
        exact hpre

end GS
