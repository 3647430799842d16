import Verif.OrderRun
/-!
# Simulation between runs that differ in the iteration order of sets
-/

set_option linter.unusedSectionVars false

namespace GS
open Spec
variable {α κ W : Type _} [DecidableEq α] [DecidableEq κ]
variable {a : RunArgs α κ W} {abs : Bool} {A : α → α → Prop} {s s' t t' : Sys α κ W}

/-- A set is being chosen. -/
def PC.busy : PC α → Bool
  | .choosing _ => true
  | _ => false

/-- An exception left the generator. -/
def PC.failed : PC α → Bool
  | .raised _ => true
  | _ => false

/-- One step, where the whole choice of a set counts as one. -/
inductive Macro (a : RunArgs α κ W) (abs : Bool) :
    Sys α κ W → PC α → Sys α κ W → PC α → Option (List α) → Prop
  | one {s s' : Sys α κ W} {pc pc' : PC α} {ev} : StepR a abs s pc s' pc' ev → pc.busy = false →
      pc'.busy = false → Macro a abs s pc s' pc' (ev.bind Event.yield?)
  | layer {s s1 s' : Sys α κ W} {st idx changed layer c} {pc' : PC α} {ev}
      (hq : s.queue[idx]? = some layer) (hg : Going s a st)
      (hc : Choosing a abs (s.putStore st) ⟨idx, changed, layer, [], layer, false⟩ s1 c)
      (hs : StepR a abs s1 (.choosing c) s' pc' ev) (hp : pc'.busy = false) :
      Macro a abs s (.inner idx changed) s' pc' (ev.bind Event.yield?)

/-! ## Termination conditions -/

theorem Going.unique {st st' : Store α κ} (h : Going s a st) (h' : Going s a st') : st' = st := by
  obtain ⟨x, h1, h2⟩ := h
  obtain ⟨y, h3, h4⟩ := h'
  rw [h1] at h3
  injection h3 with _ h3
  subst h3
  rw [h2] at h4
  injection h4 with _ h4
  exact h4.symm

theorem Done.unique {st st' : Store α κ} (h : Done s a st) (h' : Done s a st') : st' = st := by
  rcases h with h1 | ⟨x, h1, h2⟩ <;> rcases h' with h3 | ⟨y, h3, h4⟩
  · rw [h1] at h3; injection h3 with _ h3; exact h3.symm
  · rw [h1] at h3; injection h3 with h3 _; cases h3
  · rw [h1] at h3; injection h3 with h3 _; cases h3
  · rw [h1] at h3; injection h3 with _ h3; subst h3
    rw [h2] at h4; injection h4 with _ h4; exact h4.symm

theorem Going.noDone {st st' : Store α κ} (h : Going s a st) (h' : Done s a st') : False := by
  obtain ⟨x, h1, h2⟩ := h
  rcases h' with h3 | ⟨y, h3, h4⟩
  · rw [h1] at h3; injection h3 with h3 _; cases h3
  · rw [h1] at h3; injection h3 with _ h3; subst h3
    rw [h2] at h4; injection h4 with h4 _; cases h4

theorem Leaves.unique {idx : Nat} {st st' : Store α κ} (h : Leaves s a idx st)
    (h' : Leaves s a idx st') : st' = st := by
  rcases h with ⟨h1, h2⟩ | ⟨⟨l, h1⟩, h2⟩ <;> rcases h' with ⟨h3, h4⟩ | ⟨⟨l', h3⟩, h4⟩
  · rw [h4, h2]
  · rw [h1] at h3; cases h3
  · rw [h1] at h3; cases h3
  · exact h2.unique h4

theorem Leaves.notGoing {idx : Nat} {l : List α} {st st' : Store α κ} (h : Leaves s a idx st)
    (hq : s.queue[idx]? = some l) (hg : Going s a st') : False := by
  rcases h with ⟨h1, _⟩ | ⟨_, h2⟩
  · rw [h1] at hq; cases hq
  · exact hg.noDone h2

theorem Corr.evalEsu (h : Corr a A s s') (ho : OrderFree s a) :
    eval s'.toView a.id a.esu s'.store = eval s.toView a.id a.esu s.store := by
  rw [h.store]; exact eval_fixed h.alike _ _ ho.1 rfl

theorem Corr.evalSeq (h : Corr a A s s') (ho : OrderFree s a) {st : Store α κ}
    (hst : st.owner = s.store.owner) :
    eval s'.toView a.id a.seq st = eval s.toView a.id a.seq st :=
  eval_fixed h.alike _ _ ho.2.1 hst

theorem Corr.going (h : Corr a A s s') (ho : OrderFree s a) {st : Store α κ} (hg : Going s' a st) :
    Going s a st := by
  obtain ⟨x, h1, h2⟩ := hg
  rw [h.evalEsu ho] at h1
  rw [h.evalSeq ho (eval_store' h1).owner] at h2
  exact ⟨x, h1, h2⟩

theorem Corr.done (h : Corr a A s s') (ho : OrderFree s a) {st : Store α κ} (hg : Done s' a st) :
    Done s a st := by
  rcases hg with h1 | ⟨x, h1, h2⟩
  · rw [h.evalEsu ho] at h1; exact .inl h1
  · rw [h.evalEsu ho] at h1
    rw [h.evalSeq ho (eval_store' h1).owner] at h2
    exact .inr ⟨x, h1, h2⟩

theorem Corr.leaves (h : Corr a A s s') (ho : OrderFree s a) {idx : Nat} {st : Store α κ}
    (hg : Leaves s' a idx st) : Leaves s a idx st := by
  rcases hg with ⟨h1, h2⟩ | ⟨⟨l, h1⟩, h2⟩
  · refine .inl ⟨?_, h2.trans h.store⟩
    rw [List.getElem?_eq_none_iff] at h1 ⊢
    rw [h.queue.length] at h1; exact h1
  · obtain ⟨y, hy, _⟩ := h.queue.symm.get h1
    exact .inr ⟨⟨y, hy⟩, h.done ho h2⟩

theorem Going.owner {st : Store α κ} (h : Going s a st) : st.owner = s.store.owner := by
  obtain ⟨x, h1, h2⟩ := h
  exact (eval_store' h2).owner.trans (eval_store' h1).owner

theorem Done.owner {st : Store α κ} (h : Done s a st) : st.owner = s.store.owner := by
  rcases h with h1 | ⟨x, h1, h2⟩
  · exact (eval_store' h1).owner
  · exact (eval_store' h2).owner.trans (eval_store' h1).owner

theorem Leaves.owner {idx : Nat} {st : Store α κ} (h : Leaves s a idx st) :
    st.owner = s.store.owner := by
  rcases h with ⟨_, h2⟩ | ⟨_, h2⟩
  · rw [h2]
  · exact h2.owner

/-! ## Corresponding changes -/

theorem Corr.putStore (h : Corr a A s s') (st : Store α κ) :
    Corr a A (s.putStore st) (s'.putStore st) :=
  ⟨h.nodes, h.mode, h.queue, h.clock, h.world, h.conds, rfl, h.list, h.total, h.useable⟩

theorem Corr.putTotal (h : Corr a A s s') (f : TimeScale → α → Nat) :
    Corr a A (s.putTotal a.id f) (s'.putTotal a.id f) :=
  ⟨h.nodes, h.mode, h.queue, h.clock, h.world, h.conds, h.store, h.list,
    ⟨f, by simp [Sys.putTotal, Dict.get?_set], by simp [Sys.putTotal, Dict.get?_set]⟩, h.useable⟩

theorem Corr.putUseable (h : Corr a A s s') {u u' : α → α → Nat} (hu : ∀ d m, A d m → u' d m = u d m) :
    Corr a A (s.putUseable a.id u) (s'.putUseable a.id u') :=
  ⟨h.nodes, h.mode, h.queue, h.clock, h.world, h.conds, h.store, h.list, h.total,
    ⟨u, u', by simp [Sys.putUseable, Dict.get?_set], by simp [Sys.putUseable, Dict.get?_set], hu⟩⟩

theorem Corr.putList (h : Corr a A s s') {l l' : List (List α)} (hl : SameSets l l') :
    Corr a A (s.putList a.id l) (s'.putList a.id l') :=
  ⟨h.nodes, h.mode, h.queue, h.clock, h.world, h.conds, h.store,
    ⟨l, l', by simp [Sys.putList, Dict.get?_set], by simp [Sys.putList, Dict.get?_set], hl⟩,
    h.total, h.useable⟩

theorem Corr.putStamps (h : Corr a A s s') (l l' : List Time) :
    Corr a A (s.putStamps a.id l) (s'.putStamps a.id l') :=
  ⟨h.nodes, h.mode, h.queue, h.clock, h.world, h.conds, h.store, h.list, h.total, h.useable⟩

theorem Corr.setClock (h : Corr a A s s') (c : Clock) :
    Corr a A (s.setClock a.id c) (s'.setClock a.id c) :=
  ⟨h.nodes, h.mode, h.queue, by rw [Sys.clock_setClock, Sys.clock_setClock], h.world, h.conds,
    h.store, h.list, h.total, h.useable⟩

theorem Corr.putWorld (h : Corr a A s s') (w : World α κ W) :
    Corr a A { s with world := w } { s' with world := w } :=
  ⟨h.nodes, h.mode, h.queue, h.clock, rfl, h.conds, h.store, h.list, h.total, h.useable⟩

theorem Spec.OrderFree.frame (h : OrderFree s a) (hq : t.queue = s.queue) (hc : t.conds = s.conds)
    (ho : t.store.owner = s.store.owner) : OrderFree t a := by
  unfold OrderFree
  rw [hq, hc, ho]; exact h

theorem Corr.list_eq (h : Corr a A s s') {l l' : List (List α)}
    (h1 : Dict.get? s.execList a.id = some l) (h2 : Dict.get? s'.execList a.id = some l') :
    SameSets l l' := by
  obtain ⟨x, y, h3, h4, h5⟩ := h.list
  rw [h1] at h3; rw [h2] at h4
  injection h3 with h3; injection h4 with h4
  subst h3 h4; exact h5

theorem Corr.total_eq (h : Corr a A s s') {f f' : TimeScale → α → Nat}
    (h1 : Dict.get? s.countsTotal a.id = some f) (h2 : Dict.get? s'.countsTotal a.id = some f') :
    f' = f := by
  obtain ⟨x, h3, h4⟩ := h.total
  rw [h1] at h3; rw [h2] at h4
  injection h3 with h3; injection h4 with h4
  rw [h3, h4]

/-! ## One set -/

/-- The sets chosen from the same consideration set in two orders have the same members,
and the states correspond afterwards. -/
theorem chosen_same (h : Corr a (NotTogether s.queue) s s') (ho : OrderFree s a) {idx : Nat} {ch : Bool}
    {layer layer' : List α} {c c' : Choice α} (hl : s.queue[idx]? = some layer)
    (hl' : s'.queue[idx]? = some layer')
    (h1 : Choosing a abs s ⟨idx, ch, layer, [], layer, false⟩ t c) (ht : c.todo = [])
    (hag : c.again = false)
    (h2 : Choosing a abs s' ⟨idx, ch, layer', [], layer', false⟩ t' c') (ht' : c'.todo = [])
    (hag' : c'.again = false) :
    SameMembers c.exec c'.exec ∧ Corr a (NotTogether s.queue) t t' ∧ OrderFree t a ∧
      t.queue = s.queue ∧ c'.idx = c.idx ∧ c'.changed = c.changed := by
  obtain ⟨f, hf, hf'⟩ := h.total
  obtain ⟨u, u', hu, hu', huu⟩ := h.useable
  have hcond := ho.2.2
  have i1 := h1.inv hf hu fun n cond hc v => (hcond n cond hc).store v a.id s.store
  have i2 := h2.inv hf' hu' fun n cond hc v => by
    rw [h.conds] at hc
    rw [h.store]
    exact (hcond n cond hc).store v a.id s.store
  have hll : SameMembers layer layer' := by
    obtain ⟨y, hy, hyy⟩ := h.queue.get hl
    rw [hl'] at hy; injection hy with hy; subst hy; exact hyy
  have hA : ∀ d m, NotTogether s'.queue d m ↔ NotTogether s.queue d m :=
    fun d m => ⟨fun x => h.queue.symm.apart x, fun x => h.queue.apart x⟩
  have hs2 : ∀ x ∈ c'.exec, x ∈ c.exec := chosen_sub h hf hu hu' hl hll hcond i1 ht hag i2
  have e0 : NotTogether s'.queue = NotTogether s.queue := by funext d m; exact propext (hA d m)
  have hs1 : ∀ x ∈ c.exec, x ∈ c'.exec := by
    have hsy : Corr a (NotTogether s'.queue) s' s := by rw [e0]; exact h.symm
    refine chosen_sub hsy hf' hu' hu hl' (fun n => (hll n).symm) ?_ i2 ht' hag' i1
    intro n cond hc
    rw [h.conds] at hc
    rw [e0, h.store]
    exact hcond n cond hc
  have hsame : SameMembers c.exec c'.exec := fun n => ⟨hs1 n, hs2 n⟩
  have hlq : layer ∈ s.queue := List.mem_of_getElem? hl
  refine ⟨hsame, ?_, ?_, ?_, i2.idx.trans i1.idx.symm, i2.changed.trans i1.changed.symm⟩
  · rw [i1.state, i2.state]
    have ef : bumpFs c'.exec f = bumpFs c.exec f := by
      funext ts m
      rw [bumpFs_eq _ f i1.nodup, bumpFs_eq _ f i2.nodup]
      by_cases hm : m ∈ c.exec
      · simp [hm, hs1 m hm]
      · have : m ∉ c'.exec := fun h => hm (hs2 m h)
        simp [hm, this]
    unfold bumped
    rw [ef]
    refine (h.putTotal _).putUseable ?_
    intro d m hdm
    by_cases hd : d ∈ c.exec
    · have hm : m ∉ c.exec := fun hm => hdm layer hlq ⟨i1.sub d hd, i1.sub m hm⟩
      rw [bumpUs_sender _ u i1.nodup hd hm,
        bumpUs_sender _ u' i2.nodup (hs1 d hd) (fun h => hm (hs2 m h)), huu d m hdm]
    · have hd' : d ∉ c'.exec := fun h => hd (hs2 d h)
      by_cases hm : m ∈ c.exec
      · rw [bumpUs_receiver _ u hd hm, bumpUs_receiver _ u' hd' (hs1 m hm)]
      · have hm' : m ∉ c'.exec := fun h => hm (hs2 m h)
        rw [bumpUs_not _ u hd hm, bumpUs_not _ u' hd' hm', huu d m hdm]
  · rw [i1.state]; exact ho.frame rfl rfl rfl
  · rw [i1.state]; rfl

theorem SameMembers.isEmpty {x y : List α} (h : SameMembers x y) : y.isEmpty = x.isEmpty := by
  cases x with
  | nil => cases y with
    | nil => rfl
    | cons b y => exact absurd ((h b).2 (by simp)) (by simp)
  | cons b x => cases y with
    | nil => exact absurd ((h b).1 (by simp)) (by simp)
    | cons c y => rfl

/-! ## One macro step -/

/-- What is known after corresponding steps. -/
def After (a : RunArgs α κ W) (q : List (List α)) (t : Sys α κ W) (p : PC α) (t' : Sys α κ W) (p' : PC α) :
    Prop :=
  p' = p ∧ (p = .returned ∨ (Corr a (NotTogether q) t t' ∧ OrderFree t a ∧ t.queue = q))

theorem macro_sim (h : Corr a (NotTogether s.queue) s s') (ho : OrderFree s a) {pc p p' : PC α} {y y'}
    (h1 : Macro a abs s pc t p y) (h2 : Macro a abs s' pc t' p' y') (hp : p.failed = false)
    (hp' : p'.failed = false) :
    After a s.queue t p t' p' ∧ SameSets y.toList y'.toList := by
  cases h1 with
  | one h1 hb1 hb2 =>
    cases h1 with
    | pass hg hf =>
      cases h2 with
      | one h2 _ hb =>
        cases h2 with
        | pass hg' hf' =>
          have e := h.total_eq hf hf'
          have e2 := hg.unique (h.going ho hg')
          subst e e2
          exact ⟨⟨rfl, .inr ⟨(h.putStore _).putTotal _, ho.frame rfl rfl hg.owner, rfl⟩⟩, .nil⟩
        | stopSkip hd _ _ => exact (hg.noDone (h.done ho hd)).elim
        | stopIncr hd _ _ _ => exact (hg.noDone (h.done ho hd)).elim
        | fails => cases hp'
    | stopSkip hd _ _ =>
      cases h2 with
      | one h2 _ hb =>
        cases h2 with
        | pass hg' hf' => exact ((h.going ho hg').noDone hd).elim
        | stopSkip => exact ⟨⟨rfl, .inl rfl⟩, .nil⟩
        | stopIncr => exact ⟨⟨rfl, .inl rfl⟩, .nil⟩
        | fails => cases hp'
    | stopIncr hd _ _ _ =>
      cases h2 with
      | one h2 _ hb =>
        cases h2 with
        | pass hg' hf' => exact ((h.going ho hg').noDone hd).elim
        | stopSkip => exact ⟨⟨rfl, .inl rfl⟩, .nil⟩
        | stopIncr => exact ⟨⟨rfl, .inl rfl⟩, .nil⟩
        | fails => cases hp'
    | passEnd hl hch hc =>
      cases h2 with
      | one h2 _ hb =>
        cases h2 with
        | passEnd hl' _ hc' =>
          have e2 := hl.unique (h.leaves ho hl')
          rw [h.clock, hc] at hc'
          injection hc' with hc'
          subst e2 hc'
          exact ⟨⟨rfl, .inr ⟨(h.putStore _).setClock _, ho.frame rfl rfl hl.owner, rfl⟩⟩, .nil⟩
        | emptyYield hl' ha' hx' => subst ha'; cases hch
        | consider => cases hb
        | fails => cases hp'
      | layer hq hg _ _ _ =>
        obtain ⟨y, hy, _⟩ := h.queue.symm.get hq
        exact (hl.notGoing hy (h.going ho hg)).elim
    | emptyYield hl ha hx =>
      cases h2 with
      | one h2 _ hb =>
        cases h2 with
        | passEnd hl' hch' hc' => subst ha; cases hch'
        | emptyYield hl' ha' hx' =>
          have e2 := hl.unique (h.leaves ho hl')
          subst e2
          refine ⟨⟨rfl, .inr ⟨(h.putStore _).putList ?_, ho.frame rfl rfl hl.owner, rfl⟩⟩, .refl _⟩
          exact (h.list_eq hx hx').append (.refl _)
        | consider => cases hb
        | fails => cases hp'
      | layer hq hg _ _ _ =>
        obtain ⟨y, hy, _⟩ := h.queue.symm.get hq
        exact (hl.notGoing hy (h.going ho hg)).elim
    | consider => cases hb2
    | again => cases hb1
    | skip => cases hb1
    | reject => cases hb1
    | add => cases hb1
    | yield => cases hb1
    | yieldAbs => cases hb1
    | silent => cases hb1
    | resume hc =>
      cases h2 with
      | one h2 _ hb =>
        cases h2 with
        | resume hc' =>
          rw [h.clock, hc] at hc'
          injection hc' with hc'
          subst hc'
          exact ⟨⟨rfl, .inr ⟨h.setClock _, ho.frame rfl rfl rfl, rfl⟩⟩, .nil⟩
        | fails => cases hp'
    | resumeEmpty hc1 hc2 =>
      cases h2 with
      | one h2 _ hb =>
        cases h2 with
        | resumeEmpty hc1' hc2' =>
          rw [h.clock, hc1] at hc1'
          injection hc1' with hc1'
          subst hc1'
          rw [hc2] at hc2'
          injection hc2' with hc2'
          subst hc2'
          exact ⟨⟨rfl, .inr ⟨h.setClock _, ho.frame rfl rfl rfl, rfl⟩⟩, .nil⟩
        | fails => cases hp'
    | returned =>
      cases h2 with
      | one h2 _ hb =>
        cases h2 with
        | returned => exact ⟨⟨rfl, .inl rfl⟩, .nil⟩
        | fails hfin _ _ => cases hp'
    | raised => cases hp
    | fails => cases hp
  | @layer s1 _ st idx changed layer c _ _ hq hg hc hs hb =>
    cases h2 with
    | one h2 _ hb =>
      cases h2 with
      | passEnd hl' _ hc' => exact ((h.leaves ho hl').notGoing hq hg).elim
      | emptyYield hl' ha' hx' => exact ((h.leaves ho hl').notGoing hq hg).elim
      | consider => cases hb
      | fails => cases hp'
    | @layer s1' _ st' _ _ layer' c' _ _ hq' hg' hc' hs' hb' =>
      have est := hg.unique (h.going ho hg')
      subst est
      have hcr : Corr a (NotTogether s.queue) (s.putStore st') (s'.putStore st') := h.putStore st'
      have hof : OrderFree (s.putStore st') a := ho.frame rfl rfl hg.owner
      have key : c.todo = [] → c.again = false → c'.todo = [] → c'.again = false → _ :=
        fun k1 k2 k3 k4 => chosen_same (s := s.putStore st') (s' := s'.putStore st') hcr hof (t := s1) (t' := s1') hq hq' hc k1 k2 hc' k3 k4
      cases hs with
      | again => cases hb
      | skip => cases hb
      | reject => cases hb
      | add => cases hb
      | fails => cases hp
      | yield ht hag ha hne hx =>
        cases hs' with
        | again => cases hb'
        | skip => cases hb'
        | reject => cases hb'
        | add => cases hb'
        | fails => cases hp'
        | yieldAbs _ _ ha' _ _ => rw [ha] at ha'; cases ha'
        | silent ht' hag' ha' hne' =>
          obtain ⟨k1, _⟩ := key ht hag ht' hag'
          have := SameMembers.isEmpty k1
          rw [hne'] at this
          exact absurd (List.isEmpty_iff.1 this.symm) hne
        | yield ht' hag' ha' hne' hx' =>
          obtain ⟨k1, k2, k3, k4, k5, k6⟩ := key ht hag ht' hag'
          rw [k5]
          refine ⟨⟨rfl, .inr ⟨k2.putList ?_, k3.frame rfl rfl rfl, k4⟩⟩, .cons k1 .nil⟩
          exact (k2.list_eq hx hx').append (.cons k1 .nil)
      | yieldAbs ht hag ha hx hts =>
        cases hs' with
        | again => cases hb'
        | skip => cases hb'
        | reject => cases hb'
        | add => cases hb'
        | fails => cases hp'
        | yield ht' hag' ha' hne' hx' => rw [ha] at ha'; cases ha'
        | silent ht' hag' ha' hne' => rw [ha] at ha'; cases ha'
        | yieldAbs ht' hag' ha' hx' hts' =>
          obtain ⟨k1, k2, k3, k4, k5, k6⟩ := key ht hag ht' hag'
          rw [k5, k6, SameMembers.isEmpty k1]
          refine ⟨⟨rfl, .inr ⟨(k2.putList ?_).putStamps _ _, k3.frame rfl rfl rfl, k4⟩⟩, .cons k1 .nil⟩
          exact (k2.list_eq hx hx').append (.cons k1 .nil)
      | silent ht hag ha hne =>
        cases hs' with
        | again => cases hb'
        | skip => cases hb'
        | reject => cases hb'
        | add => cases hb'
        | fails => cases hp'
        | yieldAbs _ _ ha' _ _ => rw [ha] at ha'; cases ha'
        | yield ht' hag' ha' hne' hx' =>
          obtain ⟨k1, _⟩ := key ht hag ht' hag'
          have := SameMembers.isEmpty k1
          rw [hne] at this
          exact absurd (List.isEmpty_iff.1 this) hne'
        | silent ht' hag' ha' hne' =>
          obtain ⟨k1, k2, k3, k4, k5, k6⟩ := key ht hag ht' hag'
          rw [k5, k6]
          exact ⟨⟨rfl, .inr ⟨k2, k3, k4⟩⟩, .nil⟩

end GS
