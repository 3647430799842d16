import Verif.RunFix
/-!
# Every `next()` on a run comes back
-/

set_option linter.unusedSectionVars false

namespace GS
open Spec
variable {α κ W β : Type _} [DecidableEq α] [DecidableEq κ]
variable {E : Sys α κ W → Sys α κ W → Prop} {a : RunArgs α κ W} {s0 s : Sys α κ W}
variable {abs : Bool} {h : History α κ W} {pc : PC α}

theorem nodup_subset_length {l m : List α} (hn : l.Nodup) (hs : ∀ x ∈ l, x ∈ m) :
    l.length ≤ m.length := by
  induction l generalizing m with
  | nil => simp
  | cons x l ih =>
    have hx : x ∈ m := hs x (by simp)
    have hn' := List.nodup_cons.1 hn
    have := ih (m := m.erase x) hn'.2 (fun y hy =>
      (List.mem_erase_of_ne (by rintro rfl; exact hn'.1 hy)).2 (hs y (by simp [hy])))
    rw [List.length_erase_of_mem hx] at this
    have : 0 < m.length := List.length_pos_of_mem hx
    simp only [List.length_cons]; omega

theorem steps_add (j k : Nat) (h : History α κ W) (s : Sys α κ W) (pc : PC α) :
    steps a abs (j + k) h s pc =
      steps a abs k (steps a abs j h s pc).1 (steps a abs j h s pc).2.1
        (steps a abs j h s pc).2.2 := by
  induction j generalizing h s pc with
  | zero => simp [steps]
  | succ j ih => rw [Nat.add_right_comm]; simp only [steps]; rw [ih]

/-- From `(s, pc)` the run, left alone, comes to a `yield`, a return or an exception,
and begins to choose at most `n` sets until then. -/
def Comes (a : RunArgs α κ W) (abs : Bool) (s : Sys α κ W) (pc : PC α) (n : Nat) : Prop :=
  ∀ h, ∃ k d s' pc', steps a abs k h s pc = (h ++ d, s', pc') ∧
    (pc'.suspended = true ∨ pc'.final = true) ∧ d.countP isConsider ≤ n

theorem Comes.here {n : Nat} (hp : pc.suspended = true ∨ pc.final = true) : Comes a abs s pc n :=
  fun h => ⟨0, [], s, pc, by simp [steps], hp, by simp⟩

theorem Comes.mono {n m : Nat} (hc : Comes a abs s pc n) (hm : n ≤ m) : Comes a abs s pc m := by
  intro h
  obtain ⟨k, d, s', pc', h1, h2, h3⟩ := hc h
  exact ⟨k, d, s', pc', h1, h2, Nat.le_trans h3 hm⟩

/-- Does the event begin a choice? -/
def considers : Option (Event α) → Nat
  | some (.consider _ _) => 1
  | _ => 0

theorem Comes.step {n : Nat} {s' : Sys α κ W} {pc' ev} (hs : s.step a abs pc = (s', pc', ev))
    (hc : Comes a abs s' pc' n) : Comes a abs s pc (considers ev + n) := by
  intro h
  obtain ⟨k, d, s2, pc2, h1, h2, h3⟩ := hc (ext h s ev s')
  refine ⟨k + 1, ev.toList.map (fun x => ⟨s, x, s'⟩) ++ d, s2, pc2, ?_, h2, ?_⟩
  · simp only [steps, hs]
    rw [h1]; simp [ext]
  · rw [List.countP_append]
    have : (ev.toList.map (fun x => (⟨s, x, s'⟩ : Entry α κ W))).countP isConsider ≤ considers ev := by
      cases ev with
      | none => simp
      | some x => cases x <;> simp [isConsider, considers]
    omega

/-! ## Outside absolute-time mode -/

/-- A bound for the remaining steps. -/
def stepBound (q : List (List α)) : PC α → Nat
  | .outer => q.length * (maxCost q + 4) + 2
  | .inner idx ch => (q.length - idx) * (maxCost q + 4) + 1 +
      if ch then q.length * (maxCost q + 4) + 2 else 0
  | .choosing c => choiceCost c + 1 + ((q.length - (c.idx + 1)) * (maxCost q + 4) + 1 +
      if c.changed then q.length * (maxCost q + 4) + 2 else 0)
  | _ => 0

/-- A bound for the number of choices begun. -/
def choiceBound (q : List (List α)) : PC α → Nat
  | .outer => q.length
  | .inner idx ch => (q.length - idx) + if ch then q.length else 0
  | .choosing c => (q.length - (c.idx + 1)) + if c.changed then q.length else 0
  | _ => 0

theorem choiceCost_decr {c : Choice α} {n : α} {ns : List α} (hnd : c.exec.Nodup)
    (hsub : ∀ x ∈ c.exec, x ∈ c.layer) (hl : n ∈ c.layer) (ht : c.todo = n :: ns)
    (hn : n ∉ c.exec) :
    choiceCost { c with todo := ns, exec := c.exec ++ [n], again := true } + 1 ≤ choiceCost c := by
  have hlen : (n :: c.exec).length ≤ c.layer.length := by
    apply nodup_subset_length (List.nodup_cons.2 ⟨hn, hnd⟩)
    intro x hx
    rcases List.mem_cons.1 hx with rfl | hx
    · exact hl
    · exact hsub x hx
  simp only [List.length_cons] at hlen
  unfold choiceCost
  rw [ht]
  simp only [List.length_append, List.length_cons, List.length_nil]
  have e1 : c.layer.length - c.exec.length = (c.layer.length - (c.exec.length + 0 + 1)) + 1 := by
    omega
  rw [e1, Nat.add_mul]
  simp only [if_true]
  have : (c.layer.length - (c.exec.length + (0 + 1))) = (c.layer.length - (c.exec.length + 0 + 1)) := by
    omega
  rw [this]
  generalize (c.layer.length - (c.exec.length + 0 + 1)) * (c.layer.length + 2) = X
  omega

theorem stepBound_decr (hr : Reach E a s0 false h s pc) {s' pc' ev}
    (hst : StepR a false s pc s' pc' ev) (h1 : pc.suspended = false) (h2 : pc.final = false) :
    (pc'.suspended = true ∨ pc'.final = true) ∨
    (stepBound s.queue pc' < stepBound s.queue pc ∧
      considers ev + choiceBound s.queue pc' ≤ choiceBound s.queue pc) := by
  cases hst with
  | pass => exact .inr ⟨by simp [stepBound], by simp [considers, choiceBound]⟩
  | stopSkip => exact .inl (.inr rfl)
  | stopIncr => exact .inl (.inr rfl)
  | @passEnd idx changed st c hl hch hc =>
    have hch : changed = true := by simpa using hch
    subst hch
    refine .inr ⟨by simp only [stepBound, if_true]; omega, by
      simp only [considers, choiceBound, if_true]; omega⟩
  | emptyYield => exact .inl (.inl rfl)
  | @consider idx changed st layer hq hg =>
    have hlt : idx < s.queue.length := by
      obtain ⟨h, _⟩ := List.getElem?_eq_some_iff.1 hq; exact h
    have hmem : layer ∈ s.queue := List.mem_of_getElem? hq
    have hle := layerCost_le hmem
    refine .inr ⟨?_, by simp only [considers, choiceBound]; omega⟩
    have e : s.queue.length - idx = (s.queue.length - (idx + 1)) + 1 := by omega
    simp only [stepBound, choiceCost]
    rw [e, Nat.add_mul]
    unfold layerCost at hle
    simp only [List.length_nil, Nat.sub_zero]
    simp
    generalize (s.queue.length - (idx + 1)) * (maxCost s.queue + 4) = X
    generalize (if changed = true then s.queue.length * (maxCost s.queue + 4) + 2 else 0) = Y
    omega
  | @again c ht hag =>
    refine .inr ⟨?_, by simp [considers, choiceBound]⟩
    simp only [stepBound, choiceCost, ht, hag]
    simp
  | @skip c n ns ht hn =>
    refine .inr ⟨?_, by simp [considers, choiceBound]⟩
    simp only [stepBound, choiceCost, ht, List.length_cons]
    omega
  | @reject c n ns cond st ht hn =>
    refine .inr ⟨?_, by simp [considers, choiceBound]⟩
    simp only [stepBound, choiceCost, ht, List.length_cons]
    omega
  | @add c n ns cond st f u ht hn =>
    refine .inr ⟨?_, by simp [considers, choiceBound]⟩
    have ci := hr.choice c rfl
    obtain ⟨d, hd⟩ := ci.todo
    have := choiceCost_decr ci.nodup ci.sub (n := n) (ns := ns) (by rw [hd, ht]; simp) ht hn
    simp only [stepBound]
    omega
  | yield => exact .inl (.inl rfl)
  | yieldAbs _ _ ha => cases ha
  | @silent c =>
    refine .inr ⟨?_, by simp [considers, choiceBound]⟩
    simp only [stepBound]
    omega
  | resume => cases h1
  | resumeEmpty => cases h1
  | returned => cases h2
  | raised => cases h2
  | fails => exact .inl (.inr rfl)

theorem comes_of_bound (m : Nat) : ∀ {h s pc}, Reach E a s0 false h s pc →
    stepBound s.queue pc ≤ m → pc.suspended = false →
    Comes a false s pc (choiceBound s.queue pc) := by
  induction m with
  | zero =>
    intro h s pc hr hm hp
    cases pc with
    | outer => simp [stepBound] at hm
    | inner => simp only [stepBound] at hm; omega
    | choosing => simp only [stepBound] at hm; omega
    | yielded => cases hp
    | yieldedEmpty => cases hp
    | returned => exact .here (.inr rfl)
    | raised => exact .here (.inr rfl)
  | succ m ih =>
    intro h s pc hr hm hp
    by_cases hf : pc.final = true
    · exact .here (.inr hf)
    · rcases hs : s.step a false pc with ⟨s', pc', ev⟩
      have hst := Sys.step_stepR hs
      have hr' := Reach.step hr hs
      rcases stepBound_decr hr hst hp (by simpa using hf) with h1 | ⟨h1, h2⟩
      · refine (Comes.step hs (.here (n := 0) h1)).mono ?_
        cases hst with
        | @consider idx changed st layer hq =>
          have hlt : idx < s.queue.length := by
            obtain ⟨h, _⟩ := List.getElem?_eq_some_iff.1 hq; exact h
          simp only [considers, choiceBound]; omega
        | fails hp' hfr hev =>
          rcases hev with rfl | ⟨_, rfl, _⟩ <;> simp [considers]
        | _ => simp [considers]
      · by_cases hsus : pc'.suspended = true
        · exact (Comes.step hs (.here (n := choiceBound s.queue pc') (.inl hsus))).mono h2
        · have hq : s'.queue = s.queue := hst.frame.queue
          have := ih hr' (by rw [hq]; omega) (by simpa using hsus)
          rw [hq] at this
          exact (Comes.step hs this).mono h2

theorem Reach.comes (hr : Reach E a s0 false h s pc) :
    ∃ s' pc' ev, s.step a false pc = (s', pc', ev) ∧
      Comes a false s' pc' (2 * s.queue.length - considers ev) := by
  rcases hs : s.step a false pc with ⟨s', pc', ev⟩
  have hst := Sys.step_stepR hs
  have hr' := Reach.step hr hs
  have hq : s'.queue = s.queue := hst.frame.queue
  refine ⟨s', pc', ev, rfl, ?_⟩
  by_cases hsus : pc'.suspended = true
  · exact .here (.inl hsus)
  · refine (comes_of_bound _ hr' (Nat.le_refl _) (by simpa using hsus)).mono ?_
    rw [hq]
    cases hst with
    | @consider idx changed st layer hq' =>
      have hlt : idx < s.queue.length := by
        obtain ⟨h, _⟩ := List.getElem?_eq_some_iff.1 hq'; exact h
      simp only [considers, choiceBound]
      split <;> omega
    | fails hp' hfr hev => simp [choiceBound]
    | @again c => simp only [choiceBound, considers]; split <;> omega
    | @skip c => simp only [choiceBound, considers]; split <;> omega
    | @reject c => simp only [choiceBound, considers]; split <;> omega
    | @add c => simp only [choiceBound, considers]; split <;> omega
    | @silent c => simp only [choiceBound, considers]; split <;> omega
    | _ => simp only [choiceBound, considers] <;> (try split) <;> omega

/-! ## Absolute-time mode -/

mutual
/-- How many more times the `NWhen`s in a condition can be satisfied. -/
def quota (id : Option κ) (st : Store α κ) : Cond α κ W → Nat
  | .leaf _ _ => 0
  | .whileNot _ _ => 0
  | .all _ args => quotas id st args
  | .any _ args => quotas id st args
  | .not _ c => quota id st c
  | .nwhen o c n => (n - (st.sat o id : Int)).toNat + quota id st c
/-- The sum over components. -/
def quotas (id : Option κ) (st : Store α κ) : List (Cond α κ W) → Nat
  | [] => 0
  | c :: cs => quota id st c + quotas id st cs
end

mutual
theorem quota_mono {id : Option κ} {st st' : Store α κ} (h : StoreStep id st st') :
    ∀ c : Cond α κ W, quota id st' c ≤ quota id st c
  | .leaf _ _ => Nat.le_refl _
  | .whileNot _ _ => Nat.le_refl _
  | .all _ args => quotas_mono h args
  | .any _ args => quotas_mono h args
  | .not _ c => quota_mono h c
  | .nwhen o c n => by
    have h1 := quota_mono h c
    have h2 := h.grow o id
    simp only [quota]; omega
theorem quotas_mono {id : Option κ} {st st' : Store α κ} (h : StoreStep id st st') :
    ∀ cs : List (Cond α κ W), quotas id st' cs ≤ quotas id st cs
  | [] => Nat.le_refl _
  | c :: cs => by
    have h1 := quota_mono h c
    have h2 := quotas_mono h cs
    simp only [quotas]; omega
end

mutual
theorem eval_quota (v : View α κ W) (id : Option κ) : ∀ (c : Cond α κ W) (st : Store α κ),
    (eval v id c st).2 = st ∨ quota id (eval v id c st).2 c < quota id st c
  | .leaf o k, st => .inl rfl
  | .whileNot o f, st => .inl rfl
  | .all o args, st => evalAll_quota v id args st
  | .any o args, st => evalAny_quota v id args st
  | .not o c, st => eval_quota v id c st
  | .nwhen o c n, st => by
    have h1 := eval_quota v id c st
    have h2 := eval_store v id c st
    unfold eval
    split
    · rename_i hlt
      rcases hc : eval v id c st with ⟨e | b, st'⟩
      · rw [hc] at h1
        simp only [nwhenResult, quota]
        have h3 := h2.grow o id
        rw [hc] at h3
        simp only at h1 h3
        rcases h1 with h1 | h1
        · exact .inl h1
        · right; omega
      · rw [hc] at h1 h2
        simp only at h1 h2
        cases b
        · simp only [nwhenResult, quota]
          have h3 := h2.grow o id
          rcases h1 with h1 | h1
          · exact .inl h1
          · right; omega
        · right
          simp only [nwhenResult, quota]
          have h3 := h2.grow o id
          have h4 := quota_mono (h2.trans (.bump id o st')) c
          have h5 : (st'.bumpSat o id).sat o id = st'.sat o id + 1 := by simp [Store.bumpSat]
          rw [h5]; omega
    · exact .inl rfl
theorem evalAll_quota (v : View α κ W) (id : Option κ) :
    ∀ (cs : List (Cond α κ W)) (st : Store α κ),
    (evalAll v id cs st).2 = st ∨ quotas id (evalAll v id cs st).2 cs < quotas id st cs
  | [], st => .inl rfl
  | c :: cs, st => by
    have h1 := eval_quota v id c st
    have h2 := eval_store v id c st
    unfold evalAll
    rcases hc : eval v id c st with ⟨e | b, st'⟩
    · rw [hc] at h1 h2; simp only at h1 h2 ⊢
      have := quotas_mono h2 cs
      simp only [quotas]
      rcases h1 with h1 | h1
      · exact .inl h1
      · right; omega
    · rw [hc] at h1 h2; simp only at h1 h2 ⊢
      have h3 := quotas_mono h2 cs
      cases b
      · simp only [quotas]
        rcases h1 with h1 | h1
        · exact .inl h1
        · right; omega
      · simp only [quotas]
        have h4 := evalAll_quota v id cs st'
        have h5 := quota_mono (evalAll_store v id cs st') c
        rcases h1 with h1 | h1
        · subst h1
          rcases h4 with h4 | h4
          · exact .inl h4
          · right; omega
        · rcases h4 with h4 | h4
          · right; rw [h4]; omega
          · right; omega
theorem evalAny_quota (v : View α κ W) (id : Option κ) :
    ∀ (cs : List (Cond α κ W)) (st : Store α κ),
    (evalAny v id cs st).2 = st ∨ quotas id (evalAny v id cs st).2 cs < quotas id st cs
  | [], st => .inl rfl
  | c :: cs, st => by
    have h1 := eval_quota v id c st
    have h2 := eval_store v id c st
    unfold evalAny
    rcases hc : eval v id c st with ⟨e | b, st'⟩
    · rw [hc] at h1 h2; simp only at h1 h2 ⊢
      have := quotas_mono h2 cs
      simp only [quotas]
      rcases h1 with h1 | h1
      · exact .inl h1
      · right; omega
    · rw [hc] at h1 h2; simp only at h1 h2 ⊢
      have h3 := quotas_mono h2 cs
      cases b
      · simp only [quotas]
        have h4 := evalAny_quota v id cs st'
        have h5 := quota_mono (evalAny_store v id cs st') c
        rcases h1 with h1 | h1
        · subst h1
          rcases h4 with h4 | h4
          · exact .inl h4
          · right; omega
        · rcases h4 with h4 | h4
          · right; rw [h4]; omega
          · right; omega
      · simp only [quotas]
        rcases h1 with h1 | h1
        · exact .inl h1
        · right; omega
end

theorem Going.quota {a : RunArgs α κ W} {st : Store α κ} (hg : Going s a st) :
    st = s.store ∨ quota a.id st a.esu + quota a.id st a.seq <
      quota a.id s.store a.esu + quota a.id s.store a.seq := by
  obtain ⟨st1, h1, h2⟩ := hg
  have g1 := eval_quota s.toView a.id a.esu s.store
  have g2 := eval_quota s.toView a.id a.seq st1
  have m1 := quota_mono (eval_store' h1) a.seq
  have m2 := quota_mono (eval_store' h2) a.esu
  rw [h1] at g1; rw [h2] at g2
  simp only at g1 g2
  rcases g1 with g1 | g1
  · subst g1
    rcases g2 with g2 | g2
    · exact .inl g2
    · right; omega
  · rcases g2 with g2 | g2
    · right; subst g2; omega
    · right; omega

theorem Done.storeStep {a : RunArgs α κ W} {st : Store α κ} (hd : Done s a st) :
    StoreStep a.id s.store st := hd.store

theorem Going.notDone {a : RunArgs α κ W} {st st' : Store α κ} (hg : Going s a st)
    (hd : Done s a st') : False := by
  obtain ⟨st1, h1, h2⟩ := hg
  rcases hd with hd | ⟨st2, h3, h4⟩
  · rw [h1] at hd; cases hd
  · rw [h1] at h3; cases h3
    rw [h2] at h4; cases h4

theorem Dict.set_get {κ' β : Type _} [DecidableEq κ'] {d : Dict κ' β} {k : κ'} {v : β}
    (h : Dict.get? d k = some v) : Dict.set d k v = d := by
  induction d with
  | nil => simp at h
  | cons kv d ih =>
    obtain ⟨x, y⟩ := kv
    rw [Dict.get?_cons] at h
    unfold Dict.set
    by_cases hx : x = k
    · simp only [hx, if_true] at h ⊢
      injection h with h; subst h; rfl
    · simp only [hx, if_false] at h ⊢
      rw [ih h]

theorem comesChoosing (m : Nat) : ∀ {h s c}, Reach E a s0 true h s (.choosing c) →
    choiceCost c ≤ m → Comes a true s (.choosing c) 0 := by
  induction m using Nat.strongRecOn with
  | _ m ih =>
  intro h s c hr hm
  rcases hs : s.step a true (.choosing c) with ⟨s', pc', ev⟩
  have hst := Sys.step_stepR hs
  have hr' := Reach.step hr hs
  cases hst with
  | again ht hag =>
    refine Comes.step hs (ih _ ?_ hr' (Nat.le_refl _))
    refine Nat.lt_of_lt_of_le ?_ hm
    simp only [choiceCost, ht, hag]; simp
  | skip ht hn =>
    refine Comes.step hs (ih _ ?_ hr' (Nat.le_refl _))
    refine Nat.lt_of_lt_of_le ?_ hm
    simp only [choiceCost, ht, List.length_cons]; omega
  | reject ht hn =>
    refine Comes.step hs (ih _ ?_ hr' (Nat.le_refl _))
    refine Nat.lt_of_lt_of_le ?_ hm
    simp only [choiceCost, ht, List.length_cons]; omega
  | @add _ n ns cond st f u ht hn =>
    refine Comes.step hs (ih _ ?_ hr' (Nat.le_refl _))
    have ci := hr.choice c rfl
    obtain ⟨d, hd⟩ := ci.todo
    have := choiceCost_decr ci.nodup ci.sub (n := n) (ns := ns) (by rw [hd, ht]; simp) ht hn
    omega
  | yield _ _ ha => cases ha
  | yieldAbs => exact Comes.step hs (.here (n := 0) (.inl rfl))
  | silent _ _ ha => cases ha
  | fails hp hfr hev =>
    rcases hev with rfl | ⟨hx, _, _⟩
    · exact Comes.step hs (.here (n := 0) (.inr rfl))
    · cases hx

/-- The pass-level counters of the run are zero. -/
def PassZero (s : Sys α κ W) (id : Option κ) : Prop :=
  ∃ f, Dict.get? s.countsTotal id = some f ∧ resetF .pass f = f

theorem comesInner {h s} {ch : Bool} {n : Nat}
    (hr : Reach E a s0 true h s (.inner n ch))
    (hout : ∀ st c, Leaves s a n st → Reach E a s0 true h ((s.putStore st).setClock a.id c) .outer →
      Comes a true ((s.putStore st).setClock a.id c) .outer 1) :
    Comes a true s (.inner n ch) 1 := by
  rcases hs : s.step a true (.inner n ch) with ⟨s', pc', ev⟩
  have hst := Sys.step_stepR hs
  have hr' := Reach.step hr hs
  cases hst with
  | @passEnd _ _ st c hl hch hc =>
    have hr' : Reach E a s0 true h ((s.putStore st).setClock a.id c) .outer := by simpa using hr'
    exact (Comes.step hs (hout st c hl hr')).mono (by simp [considers])
  | emptyYield _ ha => cases ha
  | consider hq hg =>
    exact (Comes.step hs (comesChoosing _ hr' (Nat.le_refl _))).mono (by simp [considers])
  | fails hp hfr hev =>
    rcases hev with rfl | ⟨hx, _, _⟩
    · exact (Comes.step hs (.here (n := 0) (.inr rfl))).mono (by simp [considers])
    · cases hx

theorem comesOuterZero (P : Nat) : ∀ {h s}, Reach E a s0 true h s .outer → s.queue ≠ [] →
    PassZero s a.id → quota a.id s.store a.esu + quota a.id s.store a.seq ≤ P →
    Comes a true s .outer 1 := by
  induction P using Nat.strongRecOn with
  | _ P ih =>
  intro h s hr hq hz hP
  rcases hs : s.step a true .outer with ⟨s', pc', ev⟩
  have hst := Sys.step_stepR hs
  have hr' := Reach.step hr hs
  cases hst with
  | @pass st f hg hf =>
    refine (Comes.step hs ?_).mono (Nat.le_of_eq (Nat.zero_add 1))
    refine comesInner hr' ?_
    intro st' c hl hr2
    obtain ⟨f', hf', hff⟩ := hz
    rw [hf] at hf'; injection hf' with hf'; subst hf'
    rcases hl with ⟨hn, _⟩ | ⟨_, hd⟩
    · exfalso
      have hn' : s.queue[0]? = none := hn
      cases hqq : s.queue with
      | nil => exact hq hqq
      | cons x q => rw [hqq] at hn'; simp at hn'
    · rcases hg.quota with hg' | hg'
      · exfalso
        subst hg'
        have : (s.putStore s.store).putTotal a.id (resetF .pass f) = s := by
          rw [hff]
          unfold Sys.putTotal Sys.putStore
          simp only
          rw [Dict.set_get hf]
        rw [this] at hd
        exact hg.notDone hd
      · have hle := quota_mono hd.store a.esu
        have hle2 := quota_mono hd.store a.seq
        have e : ((s.putStore st).putTotal a.id (resetF TimeScale.pass f)).store = st := rfl
        rw [e] at hle hle2
        refine ih _ (Nat.lt_of_lt_of_le ?_ hP) hr2 hq ⟨resetF .pass f, ?_, ?_⟩ (Nat.le_refl _)
        · have e2 : ((((s.putStore st).putTotal a.id (resetF TimeScale.pass f)).putStore
            st').setClock a.id c).store = st' := rfl
          rw [e2]; omega
        · exact Dict.get?_set_self _ _ _
        · rw [hff, hff]
  | stopSkip => exact (Comes.step hs (.here (n := 0) (.inr rfl))).mono (by simp [considers])
  | stopIncr => exact (Comes.step hs (.here (n := 0) (.inr rfl))).mono (by simp [considers])
  | fails hp hfr hev =>
    refine (Comes.step hs (.here (n := 0) (.inr rfl))).mono ?_
    rcases hev with rfl | ⟨hx, rfl, _⟩ <;> simp [considers]

theorem resetF_idem (ts : TimeScale) (f : TimeScale → α → Nat) :
    resetF ts (resetF ts f) = resetF ts f := by
  funext t n
  unfold resetF
  split <;> rfl

theorem comesOuter {h s} (hr : Reach E a s0 true h s .outer) (hq : s.queue ≠ []) :
    Comes a true s .outer 1 := by
  rcases hs : s.step a true .outer with ⟨s', pc', ev⟩
  have hst := Sys.step_stepR hs
  have hr' := Reach.step hr hs
  cases hst with
  | @pass st f hg hf =>
    refine (Comes.step hs ?_).mono (Nat.le_of_eq (Nat.zero_add 1))
    refine comesInner hr' ?_
    intro st' c hl hr2
    exact comesOuterZero _ hr2 hq
      ⟨resetF .pass f, Dict.get?_set_self _ _ _, resetF_idem _ _⟩ (Nat.le_refl _)
  | stopSkip => exact (Comes.step hs (.here (n := 0) (.inr rfl))).mono (by simp [considers])
  | stopIncr => exact (Comes.step hs (.here (n := 0) (.inr rfl))).mono (by simp [considers])
  | fails hp hfr hev =>
    refine (Comes.step hs (.here (n := 0) (.inr rfl))).mono ?_
    rcases hev with rfl | ⟨hx, rfl, _⟩ <;> simp [considers]

theorem Reach.comesAbs (hr : Reach E a s0 true h s pc) (hq : s.queue ≠ [])
    (hp : pc.suspended = false) : Comes a true s pc 1 := by
  cases pc with
  | outer => exact comesOuter hr hq
  | inner idx ch => exact comesInner hr (fun st c _ hr2 => comesOuter hr2 hq)
  | choosing c => exact (comesChoosing _ hr (Nat.le_refl _)).mono (by omega)
  | yielded => cases hp
  | yieldedEmpty => cases hp
  | returned => exact .here (.inr rfl)
  | raised => exact .here (.inr rfl)

end GS
