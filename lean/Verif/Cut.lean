import Verif.Spec.Cut
import Verif.Equiv
import Verif.Props.CondTime
/-!
# Lemmas: runs that differ in their termination conditions
-/

set_option linter.unusedSectionVars false

namespace GS
open Spec
variable {α κ W : Type _} [DecidableEq α] [DecidableEq κ]
variable {a a' : RunArgs α κ W} {abs : Bool} {s s' s0 t t' : Sys α κ W} {P : Nat → Prop}
variable {w : List (List α) → World α κ W} {h h' : History α κ W} {pc pc' : PC α}

/-! ## The start -/

theorem noEnd_filter (ha : NoAbsoluteEnd a) (s : Sys α κ W) :
    s.absoluteConds a = (s.conds.map Prod.snd).filter Cond.isAbsolute := by
  obtain ⟨h1, h2, h3⟩ := ha
  have : (a.seq :: a.esu :: a.others).filter Cond.isAbsolute = [] := by
    rw [List.filter_eq_nil_iff]
    intro c hc
    rcases List.mem_cons.1 hc with rfl | hc
    · simp [h2]
    · rcases List.mem_cons.1 hc with rfl | hc
      · simp [h1]
      · simp [h3 c hc]
  unfold Sys.absoluteConds
  rw [List.filter_append, this, List.append_nil]

/-- The beginning of a run does not depend on such termination conditions. -/
theorem Spec.SameButEnd.start (h : SameButEnd a a') (s : Sys α κ W) : s.start a' = s.start a := by
  unfold Sys.start
  rw [h.id, h.base]
  have : ∀ s : Sys α κ W, s.setupAbsolute a' = s.setupAbsolute a := by
    intro s
    unfold Sys.setupAbsolute
    rw [h.id, noEnd_filter h.plain, noEnd_filter h.plain']
  simp only [this]

/-! ## Steps -/

/-- Two schedulers that differ in attributes of objects outside `P`; the conditions of nodes
are made of objects in `P`. -/
structure Par (P : Nat → Prop) (s s' : Sys α κ W) : Prop where
  eq : s' = s.recond s.conds s'.store
  on : SameOn P s.store s'.store
  occ : ∀ n c, Dict.get? s.conds n = some c → ∀ o, Occurs o c → P o

def Pars {β : Type _} (P : Nat → Prop) (x y : Sys α κ W × β) : Prop := y.2 = x.2 ∧ Par P x.1 y.1

def ParE (P : Nat → Prop) : Except Err (Sys α κ W) → Except Err (Sys α κ W) → Prop
  | .ok s, .ok s' => Par P s s'
  | .error e, .error e' => e' = e
  | _, _ => False

theorem Par.view (h : Par P s s') : s'.toView = s.toView := by rw [h.eq]; rfl
theorem Par.conds (h : Par P s s') : s'.conds = s.conds := by rw [h.eq]; rfl

theorem Par.refl (hs : ∀ n c, Dict.get? s.conds n = some c → ∀ o, Occurs o c → P o) : Par P s s :=
  ⟨rfl, .refl _ _, hs⟩

theorem Par.change (h : Par P s s') {t : Sys α κ W} (h1 : t.conds = s.conds)
    (h2 : t.store = s.store) : Par P t (t.recond s.conds s'.store) :=
  ⟨by rw [← h1]; rfl, by rw [h2]; exact h.on, by rw [h1]; exact h.occ⟩

theorem Par.mapped (h : Par P s s') {f : Sys α κ W → Except Err (Sys α κ W)}
    (hf : ∀ d st s, f (s.recond d st) = (f s).map fun s => s.recond d st)
    (h1 : ∀ t, f s = .ok t → t.conds = s.conds ∧ t.store = s.store) :
    ParE P (f s) (f s') := by
  have e := h.eq
  have e1 := hf s.conds s'.store s
  rw [← e] at e1
  rw [e1]
  cases hs : f s with
  | error e => exact rfl
  | ok t => exact h.change (h1 t hs).1 (h1 t hs).2

theorem Par.incrClock (h : Par P s s') (id ts) : ParE P (s.incrClock id ts) (s'.incrClock id ts) :=
  h.mapped (f := fun s => s.incrClock id ts) (fun d st s => Sys.incrClock_recond d st s id ts)
    fun _ ht => Sys.incrClock_conds ht

theorem Par.resetTotal (h : Par P s s') (id ts) :
    ParE P (s.resetTotal ts id) (s'.resetTotal ts id) :=
  h.mapped (f := fun s => s.resetTotal ts id) (fun d st s => Sys.resetTotal_recond d st s ts id)
    fun _ ht => Sys.resetTotal_conds ht

theorem Par.fire (h : Par P s s') (id n) : ParE P (s.fire id n) (s'.fire id n) :=
  h.mapped (f := fun s => s.fire id n) (fun d st s => Sys.fire_recond d st s id n)
    fun _ ht => Sys.fire_conds ht

theorem Par.record (h : Par P s s') (id abs set) :
    Pars P (s.record id abs set) (s'.record id abs set) := by
  have e1 := Sys.record_recond s.conds s'.store s id abs set
  rw [← h.eq] at e1
  rw [e1]
  exact ⟨rfl, h.change (Sys.record_conds s id abs set).1 (Sys.record_conds s id abs set).2⟩

theorem Par.evalCond (h : Par P s s') {c : Cond α κ W} (hc : ∀ o, Occurs o c → P o)
    (id : Option κ) : Pars P (s.evalCond id c) (s'.evalCond id c) := by
  obtain ⟨h1, h2⟩ := eval_sameOn s.toView id P c s.store s'.store hc h.on
  unfold Sys.evalCond
  rw [h.view]
  refine ⟨h1, ?_, h2, h.occ⟩
  conv => lhs; rw [h.eq]
  rfl

theorem Par.considerNode (h : Par P s s') (id : Option κ) (n : α) :
    Pars P (s.considerNode id n) (s'.considerNode id n) := by
  unfold Sys.considerNode
  rw [h.conds]
  rcases hc : Dict.get? s.conds n with _ | c
  · exact ⟨rfl, h⟩
  · dsimp only
    have k := h.evalCond (h.occ n c hc) id
    rcases e : s.evalCond id c with ⟨t, r⟩
    rcases e' : s'.evalCond id c with ⟨t', r'⟩
    rw [e, e'] at k
    obtain ⟨k1, k2⟩ := k
    dsimp only at k1 k2
    subst k1
    rcases r' with x | x
    · exact ⟨rfl, k2⟩
    · cases x
      · exact ⟨rfl, k2⟩
      · have k3 := k2.fire id n
        dsimp only
        rcases f : t.fire id n with x | u <;> rcases f' : t'.fire id n with x' | u' <;>
          rw [f, f'] at k3
        · cases k3; exact ⟨rfl, k2⟩
        · exact k3.elim
        · exact k3.elim
        · exact ⟨rfl, k3⟩

theorem Par.endPass (h : Par P s s') (ha : SameButEnd a a') (abs changed : Bool) :
    Pars P (s.endPass a abs changed) (s'.endPass a' abs changed) := by
  unfold Sys.endPass
  rw [ha.id]
  split
  · have k := h.record a.id false []
    rcases e : s.record a.id false [] with ⟨t, r⟩
    rcases e' : s'.record a.id false [] with ⟨t', r'⟩
    rw [e, e'] at k
    obtain ⟨k1, k2⟩ := k
    dsimp only at k1 k2
    subst k1
    rcases r' with _ | x <;> exact ⟨rfl, k2⟩
  · have k3 := h.incrClock a.id .pass
    rcases f : s.incrClock a.id .pass with x | u <;> rcases f' : s'.incrClock a.id .pass with x' | u' <;>
      rw [f, f'] at k3
    · cases k3; exact ⟨rfl, h⟩
    · exact k3.elim
    · exact k3.elim
    · exact ⟨rfl, k3⟩

theorem Par.endChoice (h : Par P s s') (ha : SameButEnd a a') (abs : Bool) (c : Choice α) :
    Pars P (s.endChoice a abs c) (s'.endChoice a' abs c) := by
  unfold Sys.endChoice
  rw [ha.id]
  dsimp only
  split
  · have k := h.record a.id abs c.exec
    rcases e : s.record a.id abs c.exec with ⟨t, r⟩
    rcases e' : s'.record a.id abs c.exec with ⟨t', r'⟩
    rw [e, e'] at k
    obtain ⟨k1, k2⟩ := k
    dsimp only at k1 k2
    subst k1
    rcases r' with _ | x <;> exact ⟨rfl, k2⟩
  · exact ⟨rfl, h⟩

theorem Par.choose (h : Par P s s') (ha : SameButEnd a a') (abs : Bool) (c : Choice α) :
    Pars P (s.choose a abs c) (s'.choose a' abs c) := by
  unfold Sys.choose
  split
  · split
    · exact ⟨rfl, h⟩
    · exact h.endChoice ha abs c
  · rename_i n ns _
    split
    · exact ⟨rfl, h⟩
    · rw [ha.id]
      have k := h.considerNode a.id n
      rcases e : s.considerNode a.id n with ⟨t, r⟩
      rcases e' : s'.considerNode a.id n with ⟨t', r'⟩
      rw [e, e'] at k
      obtain ⟨k1, k2⟩ := k
      dsimp only at k1 k2
      subst k1
      rcases r' with x | x
      · exact ⟨rfl, k2⟩
      · cases x <;> exact ⟨rfl, k2⟩

/-- The termination conditions of `a` do not touch objects in `P`. -/
def Harmless (P : Nat → Prop) (a : RunArgs α κ W) : Prop :=
  ∀ (v : View α κ W) (st : Store α κ), SameOn P st (eval v a.id a.esu st).2 ∧
    SameOn P st (eval v a.id a.seq st).2

theorem continues_unsatisfied (hu : Unsatisfied s a) :
    ∃ st, s.continues a = ({ s with store := st }, .ok true) ∧
      (Harmless P a → SameOn P s.store st) := by
  obtain ⟨st1, st2, h1, h2⟩ := hu
  refine ⟨st2, ?_, fun hp => ?_⟩
  · unfold Sys.continues Sys.evalCond
    rw [h1]
    dsimp only
    rw [h2]
    rfl
  · have k1 := (hp s.toView s.store).1
    have k2 := (hp s.toView st1).2
    rw [h1] at k1
    rw [h2] at k2
    exact k1.trans k2

theorem Par.continues (h : Par P s s') (hu : Unsatisfied s a) (hu' : Unsatisfied s' a')
    (hp : Harmless P a) (hp' : Harmless P a') :
    (s.continues a).2 = .ok true ∧ (s'.continues a').2 = .ok true ∧
    Par P (s.continues a).1 (s'.continues a').1 := by
  obtain ⟨st, e1, k1⟩ := continues_unsatisfied (P := P) hu
  obtain ⟨st', e1', k1'⟩ := continues_unsatisfied (P := P) hu'
  rw [e1, e1']
  refine ⟨rfl, rfl, ?_, (k1 hp).symm.trans (h.on.trans (k1' hp')), h.occ⟩
  conv => lhs; rw [h.eq]
  rfl

theorem Par.step (h : Par P s s') (ha : SameButEnd a a') (hp : Harmless P a) (hp' : Harmless P a')
    (abs : Bool) (pc : PC α) (hg : GoesOn a s pc) (hg' : GoesOn a' s' pc) :
    Pars P (s.step a abs pc) (s'.step a' abs pc) := by
  cases pc with
  | outer =>
    obtain ⟨k1, k1', k2⟩ := h.continues hg hg' hp hp'
    simp only [Sys.step]
    rw [ha.id]
    rcases e : s.continues a with ⟨t, r⟩
    rcases e' : s'.continues a' with ⟨t', r'⟩
    rw [e, e'] at k2
    rw [e] at k1
    rw [e'] at k1'
    dsimp only at k1 k1' k2
    subst k1 k1'
    have k3 := k2.resetTotal a.id .pass
    dsimp only
    rcases f : t.resetTotal .pass a.id with x | u <;>
      rcases f' : t'.resetTotal .pass a.id with x' | u' <;> rw [f, f'] at k3
    · cases k3; exact ⟨rfl, k2⟩
    · exact k3.elim
    · exact k3.elim
    · exact ⟨rfl, k3⟩
  | inner idx changed =>
    have hq : s'.queue = s.queue := congrArg View.queue h.view
    simp only [Sys.step]
    simp only [GoesOn, hq] at hg hg'
    rw [hq]
    cases hl : s.queue[idx]? with
    | none => exact h.endPass ha abs changed
    | some layer =>
      have hlt : idx < s.queue.length := by
        rcases Nat.lt_or_ge idx s.queue.length with h | h
        · exact h
        · rw [List.getElem?_eq_none h] at hl; cases hl
      obtain ⟨k1, k1', k2⟩ := h.continues (hg hlt) (hg' hlt) hp hp'
      dsimp only
      rcases e : s.continues a with ⟨t, r⟩
      rcases e' : s'.continues a' with ⟨t', r'⟩
      rw [e, e'] at k2
      rw [e] at k1
      rw [e'] at k1'
      dsimp only at k1 k1' k2
      subst k1 k1'
      exact ⟨rfl, k2⟩
  | choosing c => exact h.choose ha abs c
  | yielded idx changed =>
    simp only [Sys.step]
    rw [ha.id]
    have k3 := h.incrClock a.id .consideration_set_execution
    rcases f : s.incrClock a.id .consideration_set_execution with x | u <;>
      rcases f' : s'.incrClock a.id .consideration_set_execution with x' | u' <;> rw [f, f'] at k3
    · cases k3; exact ⟨rfl, h⟩
    · exact k3.elim
    · exact k3.elim
    · exact ⟨rfl, k3⟩
  | yieldedEmpty =>
    simp only [Sys.step]
    rw [ha.id]
    have k3 := h.incrClock a.id .consideration_set_execution
    rcases f : s.incrClock a.id .consideration_set_execution with x | u <;>
      rcases f' : s'.incrClock a.id .consideration_set_execution with x' | u' <;> rw [f, f'] at k3
    · cases k3; exact ⟨rfl, h⟩
    · exact k3.elim
    · exact k3.elim
    · dsimp only
      have k4 := Par.incrClock k3 a.id .pass
      rcases g : u.incrClock a.id .pass with x | v <;>
        rcases g' : u'.incrClock a.id .pass with x' | v' <;> rw [g, g'] at k4
      · cases k4; exact ⟨rfl, k3⟩
      · exact k4.elim
      · exact k4.elim
      · exact ⟨rfl, k4⟩
  | returned => exact ⟨rfl, h⟩
  | raised e => exact ⟨rfl, h⟩

theorem Par.resumed (h : Par P s s') (w : List (List α) → World α κ W) (ys : List (List α))
    (pc : PC α) : Par P (resumed w ys s pc) (resumed w ys s' pc) := by
  unfold Spec.resumed
  split
  · refine ⟨?_, h.on, h.occ⟩
    conv => lhs; rw [h.eq]
    rfl
  · exact h

theorem yields_events (l : History α κ W) : yields l = (l.map Entry.ev).filterMap Event.yield? := by
  unfold yields; rw [List.filterMap_map]; rfl

/-! ## Runs -/

/-- Two runs with as many steps. -/
theorem Spec.Unended.same (ha : SameButEnd a a') {s1 : Sys α κ W}
    (hs : s0.start a = (s1, .ok abs))
    (ho : ∀ n c, Dict.get? s1.conds n = some c → ∀ o, Occurs o c → P o)
    (hp : Harmless P a) (hp' : Harmless P a') {n : Nat} (hr : Unended w a s0 abs n h s pc) :
    ∀ {abs' h' s' pc'}, Unended w a' s0 abs' n h' s' pc' →
      abs' = abs ∧ pc' = pc ∧ h'.map Entry.ev = h.map Entry.ev ∧ Par P s s' := by
  induction hr with
  | @start s hs' =>
    intro abs' h' s' pc' hr'
    cases hr' with
    | start hs2 =>
      rw [ha.start, hs'] at hs2
      rw [hs'] at hs
      cases hs; cases hs2
      exact ⟨rfl, rfl, rfl, .refl ho⟩
  | @step n h s t pc pc1 ev _ hg hst ih =>
    intro abs' h' s' pc' hr'
    cases hr' with
    | @step _ h2 s2 t2 pc2 _ ev2 hr2 hg2 hst2 =>
      obtain ⟨rfl, rfl, e1, k⟩ := ih hr2
      have hy : yields h2 = yields h := by rw [yields_events, yields_events, e1]
      rw [hy] at hg2 hst2 ⊢
      have k2 := (k.resumed w (yields h) pc2).step ha hp hp' abs' pc2 hg hg2
      rw [hst, hst2] at k2
      obtain ⟨k3, k4⟩ := k2
      dsimp only at k3
      simp only [Prod.mk.injEq] at k3
      obtain ⟨rfl, rfl⟩ := k3
      refine ⟨rfl, rfl, ?_, k4⟩
      rw [List.map_append, List.map_append, e1]
      cases ev2 <;> rfl

/-- The unended part of a run, followed by the run without end. -/
theorem Spec.Unended.forever (ha : SameButEnd a a') {s1 : Sys α κ W}
    (hs : s0.start a = (s1, .ok abs))
    (ho : ∀ n c, Dict.get? s1.conds n = some c → ∀ o, Occurs o c → P o)
    (hp : Harmless P a) (hp' : Harmless P a') (hu : ∀ s : Sys α κ W, Unsatisfied s a') {n : Nat}
    (hr : Unended w a s0 abs n h s pc) :
    ∃ h' s', Unended w a' s0 abs n h' s' pc ∧ h'.map Entry.ev = h.map Entry.ev ∧ Par P s s' := by
  induction hr with
  | @start s hs' =>
    rw [hs'] at hs
    cases hs
    exact ⟨[], _, .start (by rw [ha.start]; exact hs'), rfl, .refl ho⟩
  | @step n h s t pc pc1 ev hr hg hst ih =>
    obtain ⟨h2, s2, k1, e1, k⟩ := ih
    have hy : yields h2 = yields h := by rw [yields_events, yields_events, e1]
    have hg2 : GoesOn a' (Spec.resumed w (yields h2) s2 pc) pc := by
      cases pc with
      | outer => exact hu _
      | inner => exact fun _ => hu _
      | _ => trivial
    rcases hst2 : (Spec.resumed w (yields h2) s2 pc).step a' abs pc with ⟨t2, pc2, ev2⟩
    refine ⟨_, _, .step (s' := t2) (pc' := pc1) (ev := ev) k1 hg2 ?_, ?_, ?_⟩
    all_goals
      rw [hy] at hg2 hst2
      have k2 := (k.resumed w (yields h) pc).step ha hp hp' abs pc hg hg2
      rw [hst, hst2] at k2
      obtain ⟨k3, k4⟩ := k2
      dsimp only at k3
      simp only [Prod.mk.injEq] at k3
      obtain ⟨rfl, rfl⟩ := k3
    · rw [hy]; exact hst2
    · rw [List.map_append, List.map_append, e1]
      cases ev2 <;> rfl
    · exact k4

theorem Spec.Unended.scripted {n : Nat} (hr : Unended w a s0 abs n h s pc) :
    Scripted w a s0 abs h s pc := by
  induction hr with
  | start hs => exact .start hs
  | step _ _ hs ih => exact .step ih hs

end GS
