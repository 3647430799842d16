import Verif.Spec.EveryN
import Verif.AbsRepeatRun
import Verif.Props.RunOrder
import Verif.Props.RunCounts
/-!
# Nodes that execute at every n-th execution of another node: invariants
-/

set_option linter.unusedSectionVars false

namespace GS
open Spec Props
variable {α κ W : Type _} [DecidableEq α] [DecidableEq κ]
variable {E : Sys α κ W → Sys α κ W → Prop} {a : RunArgs α κ W} {s0 s1 s : Sys α κ W}
variable {abs : Bool} {h : History α κ W} {pc : PC α}

theorem Spec.PassesReach.prefix {j : Nat} {h1 h2 : History α κ W} (hp : PassesReach j (h1 ++ h2)) :
    PassesReach j h1 := by
  intro k1 e k2 hh he hi
  exact hp k1 e (k2 ++ h2) (by rw [hh]; simp) he hi

theorem Spec.PassesReach.ext {j : Nat} {s s' : Sys α κ W} {ev : Option (Event α)}
    (hp : PassesReach j (ext h s ev s')) : PassesReach j h := by
  cases ev with
  | none => simpa using hp
  | some x => rw [ext_some] at hp; exact hp.prefix

/-- The numbers `D` of executions of `d`, `B` of `b` and `S` of `d` since the last one of
`b`; `i` and `j` are the positions of `d` and `b`. -/
def EveryInv (h : History α κ W) (d : α) (b : α) (n i j : Nat) (pc : PC α) : Prop :=
  (selections h).count d = n * (selections h).count b + (since b (selections h)).count d ∧
  (since b (selections h)).count d ≤ n ∧
  match pc with
  | .inner k _ => k ≤ i ∨ j < k → (since b (selections h)).count d < n
  | .choosing c => (c.idx < i ∨ j < c.idx ∨ (c.idx = i ∧ d ∉ c.exec) ∨ (c.idx = j ∧ b ∈ c.exec)) →
      (since b (selections h)).count d < n
  | .yielded k _ => k < i ∨ j ≤ k → (since b (selections h)).count d < n
  | .raised _ => True
  | _ => (InPass h → j ∈ setsConsidered (currentPass h)) → (since b (selections h)).count d < n

theorem count_since_snoc (b d x : α) (l : List α) (hbd : d ≠ b) :
    (since b (l ++ [x])).count d = if x = b then 0 else
      (since b l).count d + if x = d then 1 else 0 := by
  rw [since_snoc]
  by_cases hx : x = b
  · simp [hx]
  · rw [if_neg hx, if_neg hx, List.count_append]
    congr 1
    rw [List.count_singleton]
    by_cases h2 : x = d <;> simp [h2]

theorem selections_ext_none (h : History α κ W) (s s' : Sys α κ W) (x : Event α)
    (hx : x.add? = none) : selections (ext h s (some x) s') = selections h := by
  rw [ext_some, selections_snoc]; simp [hx]

theorem setsConsidered_cur_ext (h : History α κ W) (s s' : Sys α κ W) (x : Event α)
    (h1 : x ≠ .passStart) (h2 : ∀ i l, x ≠ .consider i l) :
    setsConsidered (currentPass (ext h s (some x) s')) = setsConsidered (currentPass h) := by
  rw [ext_some, currentPass_snoc, if_neg h1, setsConsidered_snoc]
  cases x <;> simp at h2 ⊢

theorem inPass_ext (h : History α κ W) (s s' : Sys α κ W) (x : Event α) (h1 : x ≠ .passStart) :
    InPass (ext h s (some x) s') ↔ InPass h := by
  unfold InPass
  rw [ext_some]
  constructor
  · rintro ⟨e, he, hp⟩
    rcases List.mem_append.1 he with he | he
    · exact ⟨e, he, hp⟩
    · simp at he; subst he; exact absurd hp h1
  · rintro ⟨e, he, hp⟩; exact ⟨e, List.mem_append_left _ he, hp⟩

theorem InPass.ext {s s' : Sys α κ W} {ev : Option (Event α)} (hi : InPass h) :
    InPass (ext h s ev s') := by
  cases ev with
  | none => simpa using hi
  | some x =>
    obtain ⟨e, he, hp⟩ := hi
    exact ⟨e, by rw [ext_some]; exact List.mem_append_left _ he, hp⟩

/-- Within a pass, by program counter. -/
def InPassAt (h : History α κ W) : PC α → Prop
  | .outer | .returned | .raised _ => True
  | _ => InPass h

/-- Sets are considered in passes. -/
theorem Reach.inPass (hr : Reach E a s0 abs h s pc) : InPassAt h pc := by
  refine hr.ind (P := fun h _ pc => InPassAt h pc) ?_ ?_ ?_
  · intro s _; trivial
  · intro h s s' pc pc' ev hr ih hst
    cases hst with
    | pass => exact ⟨_, by rw [ext_some]; exact List.mem_append_right _ (List.mem_singleton.2 rfl), rfl⟩
    | stopSkip => trivial
    | stopIncr => trivial
    | passEnd => trivial
    | returned => trivial
    | raised => trivial
    | fails => trivial
    | resumeEmpty => trivial
    | _ => exact InPass.ext ih
  · intro h s s' pc _ ih _ _; exact ih

/-- What `run()` needs of what happens while it is suspended, for the following. -/
structure Leaves' (E : Sys α κ W → Sys α κ W → Prop) (a : RunArgs α κ W) : Prop where
  queue : Keeps E (fun s => s.queue)
  nodes : Keeps E (fun s => s.nodes)
  conds : Keeps E (fun s => s.conds)
  owner : Keeps E (fun s => s.store.owner)
  useable : Keeps E (fun s => Dict.get? s.countsUseable a.id)

/-- `b` was refused, so `d` did not execute often enough. -/
theorem refused_lt (hr : Reach E a s0 abs h s pc) (hE : Leaves' E a)
    (hs1 : s0.start a = (s1, .ok abs)) {b d : α} {n : Nat} (hbd : d ≠ b) {o : OId}
    (hc : Dict.get? s1.conds b = some (.leaf o (.everyNCalls d n))) (ho : s1.store.owner o = some b)
    (hb : b ∈ s0.nodes) (hd : d ∈ s0.nodes) (hf : Refused s a.id b) :
    (since b (selections h)).count d < n := by
  have hcs := hr.keepConds hE.conds hs1
  have hos := hr.keepOwner hE.owner hs1
  have hns := hr.keepNodes hE.nodes
  have hc' : Dict.get? s.conds b = some (.leaf o (.everyNCalls d n)) := by rw [hcs]; exact hc
  obtain ⟨c, e1, e2⟩ := hf.stateless hc' (by simp [Stateless])
  rw [hc'] at e1; injection e1 with e1; subst e1
  obtain ⟨r, r1, r2⟩ := C12_every_n_calls hr hE.useable hbd (by rw [hns]; exact hb)
    (by rw [hns]; exact hd) (o := o) (by rw [hos]; exact ho) n
  unfold Evaluates at e2 r1
  rw [e2] at r1
  injection r1 with r1
  subst r1
  have : ¬ ((n : Int) ≤ ((since b (selections h)).count d : Int)) := fun h => by simpa using r2.2 h
  omega

theorem Reach.everyN (hr : Reach E a s0 abs h s pc) (hE : Leaves' E a)
    (hs1 : s0.start a = (s1, .ok abs)) (hq : s0.queue.flatten.Nodup) {b d : α} {n i j : Nat}
    (hn : 1 ≤ n) (hi : At s0.queue i d) (hj : At s0.queue j b) (hij : i < j) {o : OId}
    (hc : Dict.get? s1.conds b = some (.leaf o (.everyNCalls d n))) (ho : s1.store.owner o = some b)
    (hb : b ∈ s0.nodes) (hd : d ∈ s0.nodes) (hp : PassesReach j h) :
    EveryInv h d b n i j pc := by
  have hbd : d ≠ b := by
    rintro rfl
    have := at_unique hq hi hj; omega
  have lastOf : ∀ {h : History α κ W} {s : Sys α κ W} {pc}, Reach E a s0 abs h s pc → ∀ c,
      pc = .choosing c → c.todo = [] → c.again = false → EveryInv h d b n i j (.choosing c) →
      (c.idx < i ∨ j ≤ c.idx) → (since b (selections h)).count d < n := by
    intro h s pc hr c hpc ht hag ih hh
    subst hpc
    have ci := hr.choice c rfl
    rcases hh with hh | hh
    · exact ih.2.2 (.inl hh)
    · rcases Nat.lt_or_ge j c.idx with h1 | h1
      · exact ih.2.2 (.inr (.inl h1))
      · have hidx : c.idx = j := by omega
        by_cases hbe : b ∈ c.exec
        · exact ih.2.2 (.inr (.inr (.inr ⟨hidx, hbe⟩)))
        · have hbl : b ∈ c.layer := by
            obtain ⟨l, hl, hbl⟩ := hj
            have := ci.queue
            rw [hr.keepQueue hE.queue, hidx, hl] at this
            injection this with this
            rw [← this]; exact hbl
          rcases hr.fix c rfl hag c.layer (by rw [ht]; simp) b hbl with h2 | h2
          · exact absurd h2 hbe
          · exact refused_lt hr hE hs1 hbd hc ho hb hd h2
  have := hr.ind (P := fun h _ pc => PassesReach j h → EveryInv h d b n i j pc) ?_ ?_ ?_
  · exact this hp
  · intro s _ _
    exact ⟨by simp [selections_nil, since, afterLast], by simp [selections_nil, since, afterLast],
      fun _ => by simp [selections_nil, since, afterLast]; omega⟩
  · intro h s s' pc pc' ev hr ih hst hp'
    have ih := ih hp'.ext
    have hqs := hr.keepQueue hE.queue
    have nochange : ∀ x : Event α, x.add? = none →
        selections (ext h s (some x) s') = selections h := fun x hx => selections_ext_none h s s' x hx
    cases hst with
    | pass hg hf =>
      unfold EveryInv at ih ⊢
      rw [nochange _ rfl]
      refine ⟨ih.1, ih.2.1, fun _ => ?_⟩
      refine ih.2.2 fun hin => ?_
      rw [ext_some] at hp'
      exact hp' h _ [] rfl rfl hin
    | stopSkip =>
      unfold EveryInv at ih ⊢
      rw [nochange _ rfl, inPass_ext _ _ _ _ (by simp), setsConsidered_cur_ext _ _ _ _ (by simp) (by simp)]
      exact ih
    | stopIncr =>
      unfold EveryInv at ih ⊢
      rw [nochange _ rfl, inPass_ext _ _ _ _ (by simp), setsConsidered_cur_ext _ _ _ _ (by simp) (by simp)]
      exact ih
    | @passEnd idx =>
      unfold EveryInv at ih ⊢
      rw [ext_none]
      refine ⟨ih.1, ih.2.1, fun hin => ih.2.2 (.inr ?_)⟩
      obtain ⟨k, hk, e1, _⟩ := hr.considered_range hE.queue
      cases hk
      have := hin hr.inPass
      rw [e1] at this
      exact List.mem_range.1 this
    | @emptyYield idx =>
      unfold EveryInv at ih ⊢
      rw [nochange _ rfl, setsConsidered_cur_ext _ _ _ _ (by simp) (by simp)]
      refine ⟨ih.1, ih.2.1, fun hin => ih.2.2 (.inr ?_)⟩
      obtain ⟨k, hk, e1, _⟩ := hr.considered_range hE.queue
      cases hk
      have := hin ((inPass_ext _ _ _ _ (by simp)).2 hr.inPass)
      rw [e1] at this
      exact List.mem_range.1 this
    | consider =>
      unfold EveryInv at ih ⊢
      rw [nochange _ rfl]
      refine ⟨ih.1, ih.2.1, ?_⟩
      rintro (h1 | h1 | ⟨h1, _⟩ | ⟨_, h1⟩)
      · exact ih.2.2 (.inl (Nat.le_of_lt h1))
      · exact ih.2.2 (.inr h1)
      · exact ih.2.2 (.inl (Nat.le_of_eq h1))
      · cases h1
    | again => rw [ext_none]; exact ih
    | skip => rw [ext_none]; exact ih
    | reject => rw [ext_none]; exact ih
    | @add c m ns cond st f u ht hm hcm hev =>
      have ci := hr.choice c rfl
      obtain ⟨dd, hdd⟩ := ci.todo
      have hat : At s0.queue c.idx m :=
        ⟨c.layer, by rw [← hqs]; exact ci.queue, by rw [hdd, ht]; simp⟩
      have hexat : ∀ x ∈ c.exec, At s0.queue c.idx x := fun x hx =>
        ⟨c.layer, by rw [← hqs]; exact ci.queue, ci.sub x hx⟩
      unfold EveryInv at ih ⊢
      rw [ext_some, selections_snoc]
      simp only [Event.add?, Option.toList_some]
      rw [count_since_snoc b d m _ hbd, List.count_append, List.count_append]
      obtain ⟨i1, i2, i3⟩ := ih
      by_cases hmb : m = b
      · subst hmb
        have hidx : c.idx = j := at_unique hq hat hj
        have hge : n ≤ (since m (selections h)).count d := by
          obtain ⟨r, r1, r2⟩ := C12_every_n_calls hr hE.useable hbd
            (by rw [hr.keepNodes hE.nodes]; exact hb) (by rw [hr.keepNodes hE.nodes]; exact hd) (o := o)
            (by rw [hr.keepOwner hE.owner hs1]; exact ho) n
          rw [hr.keepConds hE.conds hs1, hc] at hcm
          injection hcm with hcm
          subst hcm
          unfold Evaluates at r1
          rw [hev] at r1
          injection r1 with r1
          have := r2.1 r1.symm
          omega
        rw [if_pos rfl]
        have e1 : List.count d [m] = 0 := by
          rw [List.count_singleton]; simp [Ne.symm hbd]
        have e2 : List.count m [m] = 1 := by simp
        rw [e1, e2, Nat.mul_add]
        refine ⟨by omega, by omega, fun _ => by omega⟩
      · rw [if_neg hmb]
        have e2 : List.count b [m] = 0 := by rw [List.count_singleton]; simp [hmb]
        rw [e2]
        by_cases hmd : m = d
        · subst hmd
          have hidx : c.idx = i := at_unique hq hat hi
          have hlt := i3 (.inr (.inr (.inl ⟨hidx, hm⟩)))
          have e1 : List.count m [m] = 1 := by simp
          rw [e1, if_pos rfl]
          refine ⟨by simp only [Nat.add_zero]; omega, by omega, ?_⟩
          rintro (h1 | h1 | ⟨_, h1⟩ | ⟨h1, _⟩)
          · omega
          · omega
          · simp at h1
          · omega
        · have e1 : List.count d [m] = 0 := by rw [List.count_singleton]; simp [hmd]
          rw [e1, if_neg hmd]
          simp only [Nat.add_zero]
          refine ⟨i1, i2, ?_⟩
          rintro (h1 | h1 | ⟨h1, h2⟩ | ⟨h1, h2⟩)
          · exact i3 (.inl h1)
          · exact i3 (.inr (.inl h1))
          · exact i3 (.inr (.inr (.inl ⟨h1, fun hx => h2 (List.mem_append_left _ hx)⟩)))
          · refine i3 (.inr (.inr (.inr ⟨h1, ?_⟩)))
            rcases List.mem_append.1 h2 with h2 | h2
            · exact h2
            · simp at h2; exact absurd h2.symm hmb
    | @yield c l ht hag =>
      have hlast := lastOf hr c rfl ht hag ih
      unfold EveryInv at ih ⊢
      rw [nochange _ rfl]
      exact ⟨ih.1, ih.2.1, hlast⟩
    | @yieldAbs c l ts ht hag =>
      have hlast := lastOf hr c rfl ht hag ih
      unfold EveryInv at ih ⊢
      rw [nochange _ rfl]
      exact ⟨ih.1, ih.2.1, hlast⟩
    | @silent c ht hag =>
      have hlast := lastOf hr c rfl ht hag ih
      unfold EveryInv at ih ⊢
      rw [nochange _ rfl]
      exact ⟨ih.1, ih.2.1, fun hh => hlast (by omega)⟩
    | resume =>
      unfold EveryInv at ih ⊢
      rw [ext_none]
      exact ⟨ih.1, ih.2.1, fun hh => ih.2.2 (by omega)⟩
    | resumeEmpty => rw [ext_none]; exact ih
    | returned => rw [ext_none]; exact ih
    | raised => rw [ext_none]; exact ih
    | fails _ _ hev =>
      unfold EveryInv at ih ⊢
      rcases hev with rfl | ⟨rfl, rfl, _⟩
      · rw [ext_none]; exact ⟨ih.1, ih.2.1, trivial⟩
      · rw [nochange _ rfl]; exact ⟨ih.1, ih.2.1, trivial⟩
  · intro h s s' pc _ ih _ _; exact ih


/-! ## Nodes that execute in every pass -/

theorem passes_ext (h : History α κ W) (s s' : Sys α κ W) (x : Event α) :
    passes (ext h s (some x) s') = passes h + if x = .passStart then 1 else 0 := by
  unfold passes
  rw [ext_some, List.countP_append, List.countP_singleton]
  by_cases hx : x = .passStart <;> simp [hx, isPassStart]

theorem passes_zero {h : History α κ W} (hi : ¬ InPass h) : passes h = 0 := by
  unfold passes
  rw [List.countP_eq_zero]
  intro e he hp
  exact hi ⟨e, he, by simpa [isPassStart] using hp⟩

/-- The number of executions of a node at position `i` that executes in every pass. -/
def EachInv (h : History α κ W) (v : α) (i : Nat) : PC α → Prop
  | .inner k _ => (k ≤ i → (selections h).count v + 1 = passes h) ∧
      (i < k → (selections h).count v = passes h)
  | .choosing c => (c.idx < i ∨ (c.idx = i ∧ v ∉ c.exec) → (selections h).count v + 1 = passes h) ∧
      (i < c.idx ∨ (c.idx = i ∧ v ∈ c.exec) → (selections h).count v = passes h)
  | .yielded k _ => (k < i → (selections h).count v + 1 = passes h) ∧
      (i ≤ k → (selections h).count v = passes h)
  | .raised _ => True
  | _ => (InPass h → i ∈ setsConsidered (currentPass h)) → (selections h).count v = passes h

theorem Reach.eachPass (hr : Reach E a s0 abs h s pc) (hE : Keeps E fun s => s.queue)
    (hC : Keeps E fun s => s.conds)
    (hs1 : s0.start a = (s1, .ok abs)) (hq : s0.queue.flatten.Nodup) {v : α} {i : Nat}
    (hi : At s0.queue i v) {o : OId} (hc : Dict.get? s1.conds v = some (.leaf o .always))
    (hp : PassesReach i h) : EachInv h v i pc := by
  have lastOf : ∀ {h : History α κ W} {s : Sys α κ W} {pc}, Reach E a s0 abs h s pc → ∀ c,
      pc = .choosing c → c.todo = [] → c.again = false → c.idx = i → v ∈ c.exec := by
    intro h s pc hr c hpc ht hag hidx
    subst hpc
    have ci := hr.choice c rfl
    have hbl : v ∈ c.layer := by
      obtain ⟨l, hl, hbl⟩ := hi
      have := ci.queue
      rw [hr.keepQueue hE, hidx, hl] at this
      injection this with this
      rw [← this]; exact hbl
    rcases hr.fix c rfl hag c.layer (by rw [ht]; simp) v hbl with h2 | ⟨cond, st, h1, _, h3⟩
    · exact h2
    · rw [hr.keepConds hC hs1, hc] at h1
      injection h1 with h1
      subst h1
      simp [eval, evalLeaf] at h3
  have := hr.ind (P := fun h _ pc => PassesReach i h → EachInv h v i pc) ?_ ?_ ?_
  · exact this hp
  · intro s _ _ _; rfl
  · intro h s s' pc pc' ev hr ih hst hp'
    have ih := ih hp'.ext
    have hqs := hr.keepQueue hE
    have nochange : ∀ x : Event α, x.add? = none →
        selections (ext h s (some x) s') = selections h := fun x hx => selections_ext_none h s s' x hx
    have same : ∀ x : Event α, x ≠ .passStart → passes (ext h s (some x) s') = passes h := by
      intro x hx; rw [passes_ext, if_neg hx]; rfl
    cases hst with
    | pass hg hf =>
      unfold EachInv at ih ⊢
      rw [nochange _ rfl, passes_ext, if_pos rfl]
      have : (selections h).count v = passes h := by
        refine ih fun hin => ?_
        rw [ext_some] at hp'
        exact hp' h _ [] rfl rfl hin
      exact ⟨fun _ => by omega, fun h => by omega⟩
    | stopSkip =>
      unfold EachInv at ih ⊢
      rw [nochange _ rfl, same _ (by simp), inPass_ext _ _ _ _ (by simp),
        setsConsidered_cur_ext _ _ _ _ (by simp) (by simp)]
      exact ih
    | stopIncr =>
      unfold EachInv at ih ⊢
      rw [nochange _ rfl, same _ (by simp), inPass_ext _ _ _ _ (by simp),
        setsConsidered_cur_ext _ _ _ _ (by simp) (by simp)]
      exact ih
    | @passEnd idx =>
      unfold EachInv at ih ⊢
      rw [ext_none]
      intro hin
      obtain ⟨k, hk, e1, _⟩ := hr.considered_range hE
      cases hk
      have := hin hr.inPass
      rw [e1] at this
      exact ih.2 (List.mem_range.1 this)
    | @emptyYield idx =>
      unfold EachInv at ih ⊢
      rw [nochange _ rfl, same _ (by simp), setsConsidered_cur_ext _ _ _ _ (by simp) (by simp)]
      intro hin
      obtain ⟨k, hk, e1, _⟩ := hr.considered_range hE
      cases hk
      have := hin ((inPass_ext _ _ _ _ (by simp)).2 hr.inPass)
      rw [e1] at this
      exact ih.2 (List.mem_range.1 this)
    | consider =>
      unfold EachInv at ih ⊢
      rw [nochange _ rfl, same _ (by simp)]
      refine ⟨?_, ?_⟩
      · rintro (h1 | ⟨h1, _⟩)
        · exact ih.1 (Nat.le_of_lt h1)
        · exact ih.1 (Nat.le_of_eq h1)
      rintro (h1 | ⟨_, h1⟩)
      · exact ih.2 h1
      · cases h1
    | again => rw [ext_none]; exact ih
    | skip => rw [ext_none]; exact ih
    | reject => rw [ext_none]; exact ih
    | @add c m ns cond st f u ht hm =>
      have ci := hr.choice c rfl
      obtain ⟨dd, hdd⟩ := ci.todo
      have hat : At s0.queue c.idx m :=
        ⟨c.layer, by rw [← hqs]; exact ci.queue, by rw [hdd, ht]; simp⟩
      unfold EachInv at ih ⊢
      rw [same _ (by simp), ext_some, selections_snoc]
      simp only [Event.add?, Option.toList_some]
      rw [List.count_append]
      by_cases hmv : m = v
      · subst hmv
        have hidx : c.idx = i := at_unique hq hat hi
        have e1 : List.count m [m] = 1 := by simp
        have := ih.1 (.inr ⟨hidx, hm⟩)
        rw [e1]
        refine ⟨?_, fun _ => by omega⟩
        rintro (h1 | ⟨_, h1⟩)
        · omega
        · simp at h1
      · have e1 : List.count v [m] = 0 := by rw [List.count_singleton]; simp [hmv]
        rw [e1]
        simp only [Nat.add_zero]
        refine ⟨?_, ?_⟩
        · rintro (h1 | ⟨h1, h2⟩)
          · exact ih.1 (.inl h1)
          · exact ih.1 (.inr ⟨h1, fun hx => h2 (List.mem_append_left _ hx)⟩)
        · rintro (h1 | ⟨h1, h2⟩)
          · exact ih.2 (.inl h1)
          · refine ih.2 (.inr ⟨h1, ?_⟩)
            rcases List.mem_append.1 h2 with h2 | h2
            · exact h2
            · simp at h2; exact absurd h2.symm hmv
    | @yield c l ht hag =>
      have hlast := lastOf hr c rfl ht hag
      unfold EachInv at ih ⊢
      rw [nochange _ rfl, same _ (by simp)]
      refine ⟨fun hh => ih.1 (.inl hh), fun hh => ih.2 ?_⟩
      rcases Nat.lt_or_ge i c.idx with h1 | h1
      · exact .inl h1
      · have : c.idx = i := by omega
        exact .inr ⟨this, hlast this⟩
    | @yieldAbs c l ts ht hag =>
      have hlast := lastOf hr c rfl ht hag
      unfold EachInv at ih ⊢
      rw [nochange _ rfl, same _ (by simp)]
      refine ⟨fun hh => ih.1 (.inl hh), fun hh => ih.2 ?_⟩
      rcases Nat.lt_or_ge i c.idx with h1 | h1
      · exact .inl h1
      · have : c.idx = i := by omega
        exact .inr ⟨this, hlast this⟩
    | @silent c ht hag ha hne =>
      have hlast := lastOf hr c rfl ht hag
      unfold EachInv at ih ⊢
      rw [nochange _ rfl, same _ (by simp)]
      refine ⟨fun hh => ih.1 (.inl hh), fun hh => ih.2 ?_⟩
      rcases Nat.lt_or_ge i c.idx with h1 | h1
      · exact .inl h1
      · have : c.idx = i := by omega
        exact .inr ⟨this, hlast this⟩
    | resume =>
      unfold EachInv at ih ⊢
      rw [ext_none]
      exact ⟨fun hh => ih.1 (by omega), fun hh => ih.2 (by omega)⟩
    | resumeEmpty => rw [ext_none]; exact ih
    | returned => rw [ext_none]; exact ih
    | raised => trivial
    | fails => trivial
  · intro h s s' pc _ ih _ _; exact ih

end GS
