import Verif.Spec.Work
import Verif.RunInv
/-!
# The number of evaluations of conditions
-/

set_option linter.unusedSectionVars false

namespace GS
open Spec
variable {α κ W β : Type _} [DecidableEq α] [DecidableEq κ]
variable {a : RunArgs α κ W} {s s' : Sys α κ W} {abs : Bool} {pc pc' : PC α}
variable {ev : Option (Event α)} {c : Choice α} {layer l : List α}

/-! ## Arithmetic -/

/-- 1 + 2 + ... + n. -/
def tri : Nat → Nat
  | 0 => 0
  | n + 1 => tri n + (n + 1)

theorem upTo_eq : ∀ n, upTo n = tri n := by
  have : ∀ n, n * (n + 1) = 2 * tri n := by
    intro n
    induction n with
    | zero => rfl
    | succ n ih =>
      have h1 : (n + 1) * (n + 1 + 1) = n * (n + 1) + 2 * (n + 1) := by
        rw [Nat.mul_comm, ← Nat.add_mul]
      rw [h1, ih, tri]
      omega
  intro n
  unfold upTo
  rw [this]
  omega

theorem tri_mono {m n : Nat} (h : m ≤ n) : tri m ≤ tri n := by
  induction h with
  | refl => exact Nat.le_refl _
  | step _ ih => simp only [tri]; omega

/-! ## What a choice may still evaluate -/

/-- How many of the nodes are not selected. -/
def unselected (exec l : List α) : Nat := (l.filter fun n => n ∉ exec).length

/-- A bound for the evaluations to come in the choice. -/
def Choice.left (c : Choice α) : Nat :=
  unselected c.exec c.todo +
    if c.again then tri (unselected c.exec c.layer) else tri (unselected c.exec c.layer - 1)

theorem unselected_le (exec l : List α) (n : α) : unselected (exec ++ [n]) l ≤ unselected exec l := by
  unfold unselected
  induction l with
  | nil => exact Nat.le_refl _
  | cons x l ih =>
    simp only [List.filter_cons, List.mem_append, List.mem_singleton] at ih ⊢
    by_cases h1 : x ∈ exec
    · simp only [h1, not_true_eq_false, decide_false, true_or, Bool.false_eq_true, if_false]; exact ih
    · by_cases h2 : x = n
      · simp only [h2, or_true, not_true_eq_false, decide_false, Bool.false_eq_true, if_false]
        split <;> (try simp only [List.length_cons]) <;> omega
      · simp only [h1, h2, or_self, not_false_eq_true, decide_true, if_true, List.length_cons]; omega

theorem unselected_lt {exec l : List α} {n : α} (hn : n ∉ exec) (hl : n ∈ l) :
    unselected (exec ++ [n]) l + 1 ≤ unselected exec l := by
  induction l with
  | nil => cases hl
  | cons x l ih =>
    have hle := unselected_le exec l n
    unfold unselected at *
    simp only [List.filter_cons, List.mem_append, List.mem_singleton]
    by_cases h2 : x = n
    · subst h2
      simp [hn] at *
      omega
    · have hl' : n ∈ l := by
        rcases List.mem_cons.1 hl with e | e
        · exact absurd e.symm h2
        · exact e
      have := ih hl'
      by_cases h1 : x ∈ exec <;> simp [h1, h2] at * <;> omega

theorem left_begin (idx : Nat) (changed : Bool) (layer : List α) :
    ({ idx := idx, changed := changed, layer := layer, exec := [], todo := layer,
       again := false } : Choice α).left = tri layer.length := by
  have : unselected [] layer = layer.length := by
    unfold unselected
    congr 1
    exact List.filter_eq_self.2 (by simp)
  simp only [Choice.left, this]
  cases layer.length with
  | zero => rfl
  | succ m => simp only [tri, Nat.add_sub_cancel]; simp; omega

/-- Each step inside a choice uses up what it evaluates. -/
theorem left_step (h : StepR a abs s (.choosing c) s' (.choosing c') ev)
    (hsub : ∀ x ∈ c.todo, x ∈ c.layer) :
    (∀ x ∈ c'.todo, x ∈ c'.layer) ∧ c'.layer = c.layer ∧ c'.idx = c.idx ∧ c'.changed = c.changed ∧
      c'.left + (evaluates (.choosing c)).toList.length ≤ c.left := by
  cases h with
  | again h1 h2 =>
    refine ⟨fun x hx => hx, rfl, rfl, rfl, ?_⟩
    have e : unselected c.exec ([] : List α) = 0 := rfl
    simp only [evaluates, h1, Choice.left, h2, e, Option.toList, List.length_nil, if_true,
      Bool.false_eq_true, if_false]
    cases unselected c.exec c.layer with
    | zero => simp [tri]
    | succ m => simp only [tri, Nat.add_sub_cancel]; omega
  | @skip _ n ns h1 h2 =>
    refine ⟨fun x hx => hsub x (by rw [h1]; exact List.mem_cons_of_mem _ hx), rfl, rfl, rfl, ?_⟩
    simp only [evaluates, h1, h2, Choice.left, unselected, if_true, List.filter_cons]
    simp [h2]
  | @reject _ n ns d st h1 h2 h3 h4 =>
    refine ⟨fun x hx => hsub x (by rw [h1]; exact List.mem_cons_of_mem _ hx), rfl, rfl, rfl, ?_⟩
    simp only [evaluates, h1, h2, Choice.left, unselected, if_false, List.filter_cons]
    simp [h2]
    omega
  | @add _ n ns d st f u h1 h2 h3 h4 h5 h6 h7 =>
    refine ⟨fun x hx => hsub x (by rw [h1]; exact List.mem_cons_of_mem _ hx), rfl, rfl, rfl, ?_⟩
    have hn : n ∈ c.layer := hsub n (by rw [h1]; exact List.mem_cons_self)
    have k1 := unselected_lt h2 hn
    have k2 := unselected_le c.exec ns n
    have k3 : unselected c.exec (n :: ns) = unselected c.exec ns + 1 := by
      simp [unselected, h2]
    have k4 : tri (unselected (c.exec ++ [n]) c.layer) ≤ tri (unselected c.exec c.layer - 1) :=
      tri_mono (by omega)
    have k5 : tri (unselected c.exec c.layer - 1) ≤ tri (unselected c.exec c.layer) :=
      tri_mono (by omega)
    simp only [evaluates, h1, h2, Choice.left, if_false, k3, if_true]
    simp
    split <;> omega

/-! ## One choice -/

/-- The set chosen so far, and the conditions evaluated for it. -/
structure ChoosingInv (layer l : List α) (c : Choice α) : Prop where
  same : c.layer = layer
  todo : ∃ done, layer = done ++ c.todo
  sub : ∀ x ∈ c.exec, x ∈ l
  seen : ∀ x ∈ layer, x ∈ l ∨ x ∈ c.todo
  only : ∀ x ∈ l, x ∈ layer
  rounds : layer.Nodup → ∃ j, j + (if c.again then 1 else 0) ≤ c.exec.length ∧
    ∀ x, l.count x ≤ j + if x ∈ c.todo then 0 else 1
  total : l.length + c.left ≤ tri layer.length

theorem Spec.Choosing.inv (h : Choosing a abs layer l s c) : ChoosingInv layer l c := by
  induction h with
  | begin =>
    refine ⟨rfl, ⟨[], rfl⟩, (fun x hx => by cases hx), fun x hx => .inr hx, (fun x hx => by cases hx),
      fun _ => ⟨0, by simp, fun x => by simp⟩, by rw [left_begin]; simp⟩
  | @step l s s' c c' ev _ hs ih =>
    have hst := Sys.step_stepR hs
    obtain ⟨done, hd⟩ := ih.todo
    have hsub : ∀ x ∈ c.todo, x ∈ c.layer := fun x hx => by
      rw [ih.same, hd]; exact List.mem_append_right _ hx
    obtain ⟨_, _, _, _, hleft⟩ := left_step hst hsub
    have htot : (l ++ (evaluates (.choosing c)).toList).length + c'.left ≤ tri layer.length := by
      have := ih.total
      simp only [List.length_append]
      omega
    cases hst with
    | again h1 h2 =>
      have e : (evaluates (.choosing c)).toList = [] := by simp [evaluates, h1]
      rw [e, List.append_nil] at htot ⊢
      refine ⟨ih.same, ⟨[], by rw [ih.same]; rfl⟩, ih.sub, fun x hx => .inr (by rw [ih.same]; exact hx),
        ih.only, fun hn => ?_, htot⟩
      obtain ⟨j, k1, k2⟩ := ih.rounds hn
      rw [h2, if_pos rfl] at k1
      refine ⟨j + 1, by simpa using k1, fun x => ?_⟩
      have := k2 x
      rw [h1] at this
      simp at this
      omega
    | @skip _ n ns h1 h2 =>
      have e : (evaluates (.choosing c)).toList = [] := by simp [evaluates, h1, h2]
      rw [e, List.append_nil] at htot ⊢
      refine ⟨ih.same, ⟨done ++ [n], by rw [hd, h1]; simp⟩, ih.sub, fun x hx => ?_, ih.only,
        fun hn => ?_, htot⟩
      · rcases ih.seen x hx with k | k
        · exact .inl k
        · rw [h1] at k
          rcases List.mem_cons.1 k with k | k
          · subst k; exact .inl (ih.sub _ h2)
          · exact .inr k
      · obtain ⟨j, k1, k2⟩ := ih.rounds hn
        refine ⟨j, k1, fun x => ?_⟩
        have := k2 x
        rw [h1] at this
        by_cases hx : x ∈ ns
        · simpa [hx] using this
        · simp only [hx, if_false]
          split at this <;> omega
    | @reject _ n ns d st h1 h2 h3 h4 =>
      have e : (evaluates (.choosing c)).toList = [n] := by simp [evaluates, h1, h2]
      rw [e] at htot ⊢
      refine ⟨ih.same, ⟨done ++ [n], by rw [hd, h1]; simp⟩,
        fun x hx => List.mem_append_left _ (ih.sub x hx), fun x hx => ?_, fun x hx => ?_,
        fun hn => ?_, htot⟩
      · rcases ih.seen x hx with k | k
        · exact .inl (List.mem_append_left _ k)
        · rw [h1] at k
          rcases List.mem_cons.1 k with k | k
          · exact .inl (by simp [k])
          · exact .inr k
      · rcases List.mem_append.1 hx with k | k
        · exact ih.only x k
        · rw [List.mem_singleton.1 k, hd, h1]; simp
      · obtain ⟨j, k1, k2⟩ := ih.rounds hn
        refine ⟨j, k1, fun x => ?_⟩
        have := k2 x
        rw [h1] at this
        have hnn : n ∉ ns := by
          rw [hd, h1] at hn
          exact (List.nodup_cons.1 (List.nodup_append.1 hn).2.1).1
        rw [List.count_append, List.count_singleton]
        by_cases hx : x = n
        · subst hx
          simp [hnn] at this ⊢
          omega
        · have hx' : (n == x) = false := by simp; exact fun h => hx h.symm
          rw [hx']
          simpa [hx] using this
    | @add _ n ns d st f u h1 h2 h3 h4 h5 h6 h7 =>
      have e : (evaluates (.choosing c)).toList = [n] := by simp [evaluates, h1, h2]
      rw [e] at htot ⊢
      refine ⟨ih.same, ⟨done ++ [n], by rw [hd, h1]; simp⟩, fun x hx => ?_, fun x hx => ?_,
        fun x hx => ?_, fun hn => ?_, htot⟩
      · rcases List.mem_append.1 hx with k | k
        · exact List.mem_append_left _ (ih.sub x k)
        · exact List.mem_append_right _ k
      · rcases ih.seen x hx with k | k
        · exact .inl (List.mem_append_left _ k)
        · rw [h1] at k
          rcases List.mem_cons.1 k with k | k
          · exact .inl (by simp [k])
          · exact .inr k
      · rcases List.mem_append.1 hx with k | k
        · exact ih.only x k
        · rw [List.mem_singleton.1 k, hd, h1]; simp
      · obtain ⟨j, k1, k2⟩ := ih.rounds hn
        refine ⟨j, by simp at k1 ⊢; omega, fun x => ?_⟩
        have := k2 x
        rw [h1] at this
        have hnn : n ∉ ns := by
          rw [hd, h1] at hn
          exact (List.nodup_cons.1 (List.nodup_append.1 hn).2.1).1
        rw [List.count_append, List.count_singleton]
        by_cases hx : x = n
        · subst hx
          simp [hnn] at this ⊢
          omega
        · have hx' : (n == x) = false := by simp; exact fun h => hx h.symm
          rw [hx']
          simpa [hx] using this

/-! ## One request for the next set -/

/-- The evaluations of a whole pass, at most. -/
def passWork (q : List (List α)) : Nat := (q.map fun l => tri l.length).sum

theorem passWork_drop {q : List (List α)} {i : Nat} {layer : List α} (h : q[i]? = some layer) :
    passWork (q.drop i) = tri layer.length + passWork (q.drop (i + 1)) := by
  obtain ⟨hi, he⟩ := List.getElem?_eq_some_iff.1 h
  rw [List.drop_eq_getElem_cons hi, he]
  simp [passWork]

theorem passWork_drop_le (q : List (List α)) (i : Nat) : passWork (q.drop i) ≤ passWork q := by
  have : passWork q = passWork (q.take i) + passWork (q.drop i) := by
    unfold passWork
    rw [← List.sum_append_nat, ← List.map_append, List.take_append_drop]
  omega

theorem passWork_ge {q : List (List α)} {i : Nat} {layer : List α} (h : q[i]? = some layer) :
    tri layer.length ≤ passWork q := by
  have := passWork_drop h
  have := passWork_drop_le q i
  omega

/-- The evaluations until the generator is suspended, at most.  (In absolute-time mode every
choice ends with a `yield`.) -/
def workLeft (abs : Bool) (q : List (List α)) : PC α → Nat
  | .outer => passWork q
  | .inner idx changed =>
    if abs then passWork q else passWork (q.drop idx) + if changed then passWork q else 0
  | .choosing c => c.left +
    if abs then 0 else passWork (q.drop (c.idx + 1)) + if c.changed then passWork q else 0
  | .yielded idx _ => if abs then passWork q else passWork (q.drop (idx + 1)) + passWork q
  | .yieldedEmpty => passWork q
  | .returned => 0
  | .raised _ => 0

/-- The nodes still to be considered belong to the consideration set. -/
def Regular : PC α → Prop
  | .choosing c => ∀ x ∈ c.todo, x ∈ c.layer
  | _ => True

theorem work_step (h : StepR a abs s pc s' pc' ev) (hreg : Regular pc) :
    Regular pc' ∧ s'.queue = s.queue ∧ (pc'.suspended = false →
      workLeft abs s.queue pc' + (evaluates pc).toList.length ≤ workLeft abs s.queue pc) := by
  have hq := h.frame.queue
  refine ⟨?_, hq, ?_⟩
  · cases h with
    | consider => exact fun x hx => hx
    | again => exact fun x hx => hx
    | skip h1 => exact fun x hx => hreg x (by rw [h1]; exact List.mem_cons_of_mem _ hx)
    | reject h1 => exact fun x hx => hreg x (by rw [h1]; exact List.mem_cons_of_mem _ hx)
    | add h1 => exact fun x hx => hreg x (by rw [h1]; exact List.mem_cons_of_mem _ hx)
    | _ => trivial
  · intro hsus
    have hin : ∀ c c', pc = .choosing c → pc' = .choosing c' →
        workLeft abs s.queue pc' + (evaluates pc).toList.length ≤ workLeft abs s.queue pc := by
      rintro c c' rfl rfl
      obtain ⟨_, _, h3, h4, h5⟩ := left_step h hreg
      simp only [workLeft, h3, h4]
      omega
    cases h with
    | pass => cases abs <;> simp [workLeft, evaluates]
    | stopSkip => simp [workLeft, evaluates]
    | stopIncr => simp [workLeft, evaluates]
    | @passEnd _ changed _ _ hl hch =>
      cases abs
      · have : changed = true := by simpa using hch
        subst this
        simp [workLeft, evaluates]
      · simp [workLeft, evaluates]
    | emptyYield => cases hsus
    | consider hl =>
      have := passWork_ge hl
      cases abs
      · simp only [workLeft, evaluates, left_begin, passWork_drop hl, Option.toList, List.length_nil,
          Bool.false_eq_true, if_false]
        omega
      · simp only [workLeft, evaluates, left_begin, Option.toList, List.length_nil, if_true]
        omega
    | again => exact hin _ _ rfl rfl
    | skip => exact hin _ _ rfl rfl
    | reject => exact hin _ _ rfl rfl
    | add => exact hin _ _ rfl rfl
    | yield => cases hsus
    | yieldAbs => cases hsus
    | @silent c h1 h2 h3 =>
      subst h3
      simp only [workLeft, evaluates, h1, Option.toList, List.length_nil, Bool.false_eq_true, if_false]
      omega
    | resume =>
      cases abs
      · simp only [workLeft, evaluates, Option.toList, List.length_nil, Bool.false_eq_true, if_false]
        split <;> omega
      · simp [workLeft, evaluates]
    | resumeEmpty => simp [workLeft, evaluates]
    | returned => simp [workLeft, evaluates]
    | raised => simp [workLeft, evaluates]
    | @fails _ pc e _ hp hfr hev =>
      cases pc with
      | choosing c =>
        show 0 + (evaluates (.choosing c)).toList.length ≤ c.left + _
        have : (evaluates (.choosing c)).toList.length ≤ unselected c.exec c.todo := by
          cases ht : c.todo with
          | nil => simp [evaluates, ht]
          | cons n ns =>
            by_cases hn : n ∈ c.exec <;> simp [evaluates, ht, hn, unselected]
        unfold Choice.left
        omega
      | _ => simp [workLeft, evaluates]

theorem work_run : ∀ (k : Nat) (s : Sys α κ W) (pc : PC α) (h : History α κ W), Regular pc →
    (∀ j, 0 < j → j < k → (steps a abs j h s pc).2.2.suspended = false) →
    (evaluationsIn a abs k s pc).length ≤ workLeft abs s.queue pc
  | 0, _, _, _, _, _ => Nat.zero_le _
  | k + 1, s, pc, h, hreg, hsus => by
    rcases hs : s.step a abs pc with ⟨s', pc', ev⟩
    obtain ⟨h1, h2, h3⟩ := work_step (Sys.step_stepR hs) hreg
    simp only [evaluationsIn, hs, List.length_append]
    cases k with
    | zero =>
      simp only [evaluationsIn, List.length_nil]
      by_cases hp : pc'.suspended = true
      · cases hev : evaluates pc with
        | none => simp
        | some n =>
          cases pc with
          | choosing c =>
            have : (evaluates (.choosing c)).toList.length ≤ unselected c.exec c.todo := by
              cases ht : c.todo with
              | nil => simp [evaluates, ht]
              | cons n ns =>
                by_cases hn : n ∈ c.exec <;> simp [evaluates, ht, hn, unselected]
            rw [hev] at this
            simp only [workLeft, Choice.left]
            omega
          | _ => simp [evaluates] at hev
      · have := h3 (by simpa using hp)
        omega
    | succ k =>
      have hp := hsus 1 (by omega) (by omega)
      simp only [steps, hs] at hp
      have ih := work_run (k + 1) s' pc' (ext h s ev s') h1 (fun j hj hjk => by
        have := hsus (j + 1) (by omega) (by omega)
        simpa only [steps, hs] using this)
      have := h3 hp
      rw [h2] at ih
      omega

end GS
