import Verif.Tempo
import Verif.LifeDefault
import Verif.AgainRun
/-!
# Lemmas: runs at another speed
-/

set_option linter.unusedSectionVars false

namespace GS
open Spec
variable {α κ W : Type _} [DecidableEq α] [DecidableEq κ]
variable {k : Rat} {s s' : Sys α κ W} {a a' : RunArgs α κ W}

/-! ## Counters -/

/-- Corresponding results. -/
def PairTempo {β : Type _} (k : Rat) (x y : Sys α κ W × β) : Prop := y.2 = x.2 ∧ SysTempo k x.1 y.1

theorem Spec.SysTempo.totals (h : SysTempo k s s') (x) :
    SysTempo k { s with countsTotal := x } { s' with countsTotal := x } :=
  ⟨{ h.view with countsTotal := rfl }, h.conds, h.store, h.defaultUnit⟩

theorem Spec.SysTempo.useables (h : SysTempo k s s') (x) :
    SysTempo k { s with countsUseable := x } { s' with countsUseable := x } :=
  ⟨{ h.view with countsUseable := rfl }, h.conds, h.store, h.defaultUnit⟩

theorem Spec.SysTempo.lists (h : SysTempo k s s') (x) :
    SysTempo k { s with execList := x } { s' with execList := x } :=
  ⟨{ h.view with execList := rfl }, h.conds, h.store, h.defaultUnit⟩

theorem Spec.SysTempo.stored (h : SysTempo k s s') (x) :
    SysTempo k { s with store := x } { s' with store := x } :=
  ⟨h.view, h.conds, rfl, h.defaultUnit⟩

theorem Spec.SysTempo.setClock (h : SysTempo k s s') (id : Option κ) {c c' : Clock}
    (hc : ClockTempo k c c') : SysTempo k (s.setClock id c) (s'.setClock id c') :=
  ⟨{ h.view with clocks := h.view.clocks.set id hc }, h.conds, h.store, h.defaultUnit⟩

theorem Spec.SysTempo.initTotal (h : SysTempo k s s') (id base) :
    ExceptRel (SysTempo k) (s.initTotal id base) (s'.initTotal id base) := by
  unfold Sys.initTotal
  rw [h.view.countsTotal]
  cases Dict.get? s.countsTotal id with
  | some _ => exact h
  | none =>
    cases base with
    | none => exact h.totals _
    | some b =>
      dsimp only
      cases Dict.get? s.countsTotal b with
      | none => exact rfl
      | some f => exact h.totals _

theorem Spec.SysTempo.initUseable (h : SysTempo k s s') (id base) :
    ExceptRel (SysTempo k) (s.initUseable id base) (s'.initUseable id base) := by
  unfold Sys.initUseable
  rw [h.view.countsUseable]
  cases Dict.get? s.countsUseable id with
  | some _ => exact h
  | none =>
    cases base with
    | none => exact h.useables _
    | some b =>
      dsimp only
      cases Dict.get? s.countsUseable b with
      | none => exact rfl
      | some f => exact h.useables _

theorem Spec.SysTempo.initList (h : SysTempo k s s') (id base) :
    ExceptRel (SysTempo k) (s.initList id base) (s'.initList id base) := by
  unfold Sys.initList
  rw [h.view.execList]
  cases Dict.get? s.execList id with
  | some _ => exact h
  | none =>
    cases base with
    | none => exact h.lists _
    | some b =>
      dsimp only
      cases Dict.get? s.execList b with
      | none => exact rfl
      | some f => exact h.lists _

theorem Spec.SysTempo.initClock (h : SysTempo k s s') (id base) :
    ExceptRel (SysTempo k) (s.initClock id base) (s'.initClock id base) := by
  unfold Sys.initClock
  rcases h.view.clocks.get id with ⟨h1, h2⟩ | ⟨c, c', h1, h2, h3⟩
  · rw [h1, h2]
    cases base with
    | none => exact h.setClock id .new
    | some b =>
      dsimp only
      rcases h.view.clocks.get b with ⟨h1, h2⟩ | ⟨c, c', h1, h2, h3⟩
      · rw [h1, h2]; exact rfl
      · rw [h1, h2]; exact h.setClock id h3
  · rw [h1, h2]; exact h

theorem Spec.SysTempo.initCounts (h : SysTempo k s s') (id base) :
    PairTempo k (s.initCounts id base) (s'.initCounts id base) := by
  unfold Sys.initCounts
  have k1 := h.initTotal id base
  cases e1 : s.initTotal id base with
  | error e =>
    cases e1' : s'.initTotal id base with
    | error e' => rw [e1, e1'] at k1; cases k1; exact ⟨rfl, h⟩
    | ok t' => rw [e1, e1'] at k1; exact k1.elim
  | ok t =>
    cases e1' : s'.initTotal id base with
    | error e' => rw [e1, e1'] at k1; exact k1.elim
    | ok t' =>
      rw [e1, e1'] at k1
      have k1 : SysTempo k t t' := k1
      dsimp only
      have k2 := k1.initUseable id base
      cases e2 : t.initUseable id base with
      | error e =>
        cases e2' : t'.initUseable id base with
        | error e' => rw [e2, e2'] at k2; cases k2; exact ⟨rfl, k1⟩
        | ok u' => rw [e2, e2'] at k2; exact k2.elim
      | ok u =>
        cases e2' : t'.initUseable id base with
        | error e' => rw [e2, e2'] at k2; exact k2.elim
        | ok u' =>
          rw [e2, e2'] at k2
          have k2 : SysTempo k u u' := k2
          dsimp only
          have k3 := k2.initList id base
          cases e3 : u.initList id base with
          | error e =>
            cases e3' : u'.initList id base with
            | error e' => rw [e3, e3'] at k3; cases k3; exact ⟨rfl, k2⟩
            | ok w' => rw [e3, e3'] at k3; exact k3.elim
          | ok w =>
            cases e3' : u'.initList id base with
            | error e' => rw [e3, e3'] at k3; exact k3.elim
            | ok w' =>
              rw [e3, e3'] at k3
              have k3 : SysTempo k w w' := k3
              dsimp only
              have k4 := k3.initClock id base
              cases e4 : w.initClock id base with
              | error e =>
                cases e4' : w'.initClock id base with
                | error e' => rw [e4, e4'] at k4; cases k4; exact ⟨rfl, k3⟩
                | ok x' => rw [e4, e4'] at k4; exact k4.elim
              | ok x =>
                cases e4' : w'.initClock id base with
                | error e' => rw [e4, e4'] at k4; exact k4.elim
                | ok x' => rw [e4, e4'] at k4; exact ⟨rfl, k4⟩

theorem Spec.SysTempo.resetTotal (h : SysTempo k s s') (ts id) :
    ExceptRel (SysTempo k) (s.resetTotal ts id) (s'.resetTotal ts id) := by
  unfold Sys.resetTotal
  rw [h.view.countsTotal]
  cases Dict.get? s.countsTotal id with
  | none => exact rfl
  | some f => exact h.totals _

theorem Spec.SysTempo.resetUseable (h : SysTempo k s s') (id) :
    SysTempo k (s.resetUseable id) (s'.resetUseable id) := by
  unfold Sys.resetUseable
  rw [h.view.countsUseable]
  exact h.useables _

theorem Spec.SysTempo.getClock (h : SysTempo k s s') (id) :
    SysTempo k (s.getClock id) (s'.getClock id) := by
  unfold Sys.getClock
  rcases h.view.clocks.get id with ⟨h1, h2⟩ | ⟨c, c', h1, h2, h3⟩
  · rw [h1, h2]; exact h.setClock id .new
  · rw [h1, h2]; exact h

theorem Spec.SysTempo.incrClock (h : SysTempo k s s') (id ts) :
    ExceptRel (SysTempo k) (s.incrClock id ts) (s'.incrClock id ts) := by
  unfold Sys.incrClock
  have k1 := (h.view.clock id).incr ts
  cases e : (s.clock id).incr ts with
  | error x =>
    cases e' : (s'.clock id).incr ts with
    | error x' => rw [e, e'] at k1; exact k1
    | ok c' => rw [e, e'] at k1; exact k1.elim
  | ok c =>
    cases e' : (s'.clock id).incr ts with
    | error x' => rw [e, e'] at k1; exact k1.elim
    | ok c' => rw [e, e'] at k1; exact h.setClock id k1

theorem Spec.SysTempo.fire (h : SysTempo k s s') (id) (n : α) :
    ExceptRel (SysTempo k) (s.fire id n) (s'.fire id n) := by
  unfold Sys.fire
  rw [h.view.countsTotal, h.view.countsUseable, h.view.nodes]
  cases Dict.get? s.countsTotal id with
  | none => exact rfl
  | some f =>
    dsimp only
    split
    · cases Dict.get? s.countsUseable id with
      | none => exact rfl
      | some u =>
        exact ⟨{ h.view with nodes := rfl, countsTotal := rfl, countsUseable := rfl }, h.conds, h.store, h.defaultUnit⟩
    · exact rfl

theorem Spec.SysTempo.record (h : SysTempo k s s') (id abs) (set : List α) :
    PairTempo k (s.record id abs set) (s'.record id abs set) := by
  unfold Sys.record
  rw [h.view.execList]
  cases Dict.get? s.execList id with
  | none => exact ⟨rfl, h⟩
  | some l =>
    dsimp only
    split
    · rcases h.view.timestamps.get id with ⟨h1, h2⟩ | ⟨c, c', h1, h2, h3⟩
      · rw [h1, h2]; exact ⟨rfl, h.lists _⟩
      · rw [h1, h2]
        refine ⟨rfl, { h.view with execList := rfl, timestamps := ?_ }, h.conds, h.store, h.defaultUnit⟩
        exact h.view.timestamps.set id (h3.append (.cons (h.view.clock id).time .nil))
    · exact ⟨rfl, h.lists _⟩

/-! ## Conditions -/

/-- What a repeated `TimeInterval` needs. -/
def Aware (s : Sys α κ W) (a : RunArgs α κ W) : Prop :=
  ∀ c, Consulted s a c → hasRepeat c = true → (s.clock a.id).time.absolute_enabled = true

theorem Spec.SysTempo.evalCond (hk : 0 < k) (h : SysTempo k s s') (id : Option κ) {c c' : Cond α κ W}
    (hc : CondTempo k c c') (hn : hasRepeat c = true → (s.clock id).time.absolute_enabled = true) :
    PairTempo k (s.evalCond id c) (s'.evalCond id c') := by
  unfold Sys.evalCond
  rw [h.store, eval_tempo hk h.view id c c' hc hn]
  exact ⟨rfl, h.stored _⟩

theorem Aware.store (h : Aware s a) (x) : Aware { s with store := x } a := h

theorem Spec.SysTempo.considerNode (hk : 0 < k) (h : SysTempo k s s') (hn : Aware s a) (n : α) :
    PairTempo k (s.considerNode a.id n) (s'.considerNode a.id n) := by
  unfold Sys.considerNode
  rcases h.conds.get n with ⟨h1, h2⟩ | ⟨c, c', h1, h2, h3⟩
  · rw [h1, h2]; exact ⟨rfl, h⟩
  · rw [h1, h2]
    dsimp only
    obtain ⟨k1, k2⟩ := h.evalCond hk a.id h3 (hn c (.inr (.inr ⟨n, Dict.mem_of_get? h1⟩)))
    rcases e : s.evalCond a.id c with ⟨t, x⟩
    rcases e' : s'.evalCond a.id c' with ⟨t', x'⟩
    rw [e, e'] at k1 k2
    have k1 : x' = x := k1
    have k2 : SysTempo k t t' := k2
    subst k1
    rcases x' with e | b
    · exact ⟨rfl, k2⟩
    · cases b
      · exact ⟨rfl, k2⟩
      · dsimp only
        have k3 := k2.fire a.id n
        cases e2 : t.fire a.id n with
        | error e =>
          cases e2' : t'.fire a.id n with
          | error e' => rw [e2, e2'] at k3; cases k3; exact ⟨rfl, k2⟩
          | ok x' => rw [e2, e2'] at k3; exact k3.elim
        | ok x =>
          cases e2' : t'.fire a.id n with
          | error e' => rw [e2, e2'] at k3; exact k3.elim
          | ok x' => rw [e2, e2'] at k3; exact ⟨rfl, k3⟩

theorem Spec.SysTempo.continues (hk : 0 < k) (h : SysTempo k s s') (ha : ArgsTempo k a a')
    (hn : Aware s a) : PairTempo k (s.continues a) (s'.continues a') := by
  unfold Sys.continues
  rw [ha.id]
  obtain ⟨k1, k2⟩ := h.evalCond hk a.id ha.esu (hn _ (.inl rfl))
  have hn2 : (hasRepeat a.seq = true → ((s.evalCond a.id a.esu).1.clock a.id).time.absolute_enabled = true) :=
    hn _ (.inr (.inl rfl))
  rcases e : s.evalCond a.id a.esu with ⟨t, x⟩
  rcases e' : s'.evalCond a.id a'.esu with ⟨t', x'⟩
  rw [e] at hn2
  rw [e, e'] at k1 k2
  have k1 : x' = x := k1
  have k2 : SysTempo k t t' := k2
  subst k1
  rcases x' with e | b
  · exact ⟨rfl, k2⟩
  · cases b
    · dsimp only
      obtain ⟨k3, k4⟩ := k2.evalCond hk a.id ha.seq hn2
      rcases e2 : t.evalCond a.id a.seq with ⟨u, y⟩
      rcases e2' : t'.evalCond a.id a'.seq with ⟨u', y'⟩
      rw [e2, e2'] at k3 k4
      have k3 : y' = y := k3
      subst k3
      rcases y' with e | b
      · exact ⟨rfl, k4⟩
      · exact ⟨rfl, k4⟩
    · exact ⟨rfl, k2⟩

/-! ## Absolute conditions -/

theorem Spec.LeafTempo.isAbsolute {l l' : Leaf α κ W} (h : LeafTempo k l l') : l'.isAbsolute = l.isAbsolute := by
  cases h <;> rfl

mutual
theorem isAbsolute_tempo : ∀ {c c' : Cond α κ W}, CondTempo k c c' → c'.isAbsolute = c.isAbsolute
  | .leaf _ _, _, .leaf _ h => h.isAbsolute
  | .whileNot _ _, _, .whileNot _ _ => rfl
  | .all _ _, _, .all _ h => by simp only [Cond.isAbsolute]; exact anyAbsolute_tempo h
  | .any _ _, _, .any _ h => by simp only [Cond.isAbsolute]; exact anyAbsolute_tempo h
  | .not _ _, _, .not _ _ => rfl
  | .nwhen _ _ _, _, .nwhen _ _ _ => rfl
theorem anyAbsolute_tempo : ∀ {c c' : List (Cond α κ W)}, CondsTempo k c c' → anyAbsolute c' = anyAbsolute c
  | [], _, .nil => rfl
  | _ :: _, _, .cons h h2 => by
    simp only [anyAbsolute, isAbsolute_tempo h, anyAbsolute_tempo h2]
end

theorem Spec.LeafTempo.intervals {l l' : Leaf α κ W} (h : LeafTempo k l l') :
    Listwise (QtyTempo k) l.intervals l'.intervals := by
  cases h with
  | func => exact .nil
  | timeInterval si ei hr hs he =>
    cases hr with
    | none => exact .nil
    | some h => exact .cons h .nil
  | timeTermination => exact .nil
  | same h =>
    cases l with
    | timeInterval => exact h.elim
    | _ => exact .nil

theorem Spec.LeafTempo.points {l l' : Leaf α κ W} (h : LeafTempo k l l') :
    Listwise (QtyTempo k) l.fixedPoints l'.fixedPoints := by
  cases h with
  | func => exact .nil
  | timeInterval si ei hr hs he =>
    simp only [Leaf.fixedPoints, intervalPoints]
    refine .append ?_ ?_
    · cases hs with
      | none => exact .nil
      | some h =>
        cases si
        · exact .nil
        · exact .cons h .nil
    · cases he with
      | none => exact .nil
      | some h =>
        cases ei
        · exact .nil
        · exact .cons h .nil
  | timeTermination incl h =>
    cases incl
    · exact .nil
    · exact .cons h .nil
  | same h =>
    cases l with
    | timeInterval => exact h.elim
    | timeTermination => exact h.elim
    | _ => exact .nil

mutual
theorem intervals_tempo : ∀ {c c' : Cond α κ W}, CondTempo k c c' →
    Listwise (QtyTempo k) c.intervals c'.intervals
  | .leaf _ _, _, .leaf _ h => h.intervals
  | .whileNot _ _, _, .whileNot _ _ => .nil
  | .all _ _, _, .all _ h => by simp only [Cond.intervals]; exact intervalsOf_tempo h
  | .any _ _, _, .any _ h => by simp only [Cond.intervals]; exact intervalsOf_tempo h
  | .not _ _, _, .not _ _ => .nil
  | .nwhen _ _ _, _, .nwhen _ _ _ => .nil
theorem intervalsOf_tempo : ∀ {c c' : List (Cond α κ W)}, CondsTempo k c c' →
    Listwise (QtyTempo k) (intervalsOf c) (intervalsOf c')
  | [], _, .nil => .nil
  | c :: _, _, .cons h h2 => by
    simp only [intervalsOf, isAbsolute_tempo h]
    refine .append ?_ (intervalsOf_tempo h2)
    split
    · exact intervals_tempo h
    · exact .nil
end

mutual
theorem points_tempo : ∀ {c c' : Cond α κ W}, CondTempo k c c' →
    Listwise (QtyTempo k) c.fixedPoints c'.fixedPoints
  | .leaf _ _, _, .leaf _ h => h.points
  | .whileNot _ _, _, .whileNot _ _ => .nil
  | .all _ _, _, .all _ h => by simp only [Cond.fixedPoints]; exact pointsOf_tempo h
  | .any _ _, _, .any _ h => by simp only [Cond.fixedPoints]; exact pointsOf_tempo h
  | .not _ _, _, .not _ _ => .nil
  | .nwhen _ _ _, _, .nwhen _ _ _ => .nil
theorem pointsOf_tempo : ∀ {c c' : List (Cond α κ W)}, CondsTempo k c c' →
    Listwise (QtyTempo k) (fixedPointsOf c) (fixedPointsOf c')
  | [], _, .nil => .nil
  | c :: _, _, .cons h h2 => by
    simp only [fixedPointsOf, isAbsolute_tempo h]
    refine .append ?_ (pointsOf_tempo h2)
    split
    · exact points_tempo h
    · exact .nil
end

theorem Spec.CondsTempo.listwise : ∀ {cs cs' : List (Cond α κ W)}, CondsTempo k cs cs' →
    Listwise (CondTempo k) cs cs'
  | [], _, .nil => .nil
  | _ :: _, _, .cons h h2 => .cons h h2.listwise

theorem tempo_filter {cs cs' : List (Cond α κ W)} (h : Listwise (CondTempo k) cs cs') :
    Listwise (CondTempo k) (cs.filter Cond.isAbsolute) (cs'.filter Cond.isAbsolute) := by
  induction h with
  | nil => exact .nil
  | @cons c c' l l' h _ ih =>
    have e := isAbsolute_tempo h
    by_cases hc : c.isAbsolute = true
    · rw [List.filter_cons_of_pos hc, List.filter_cons_of_pos (by rw [e]; exact hc)]
      exact .cons h ih
    · rw [List.filter_cons_of_neg hc, List.filter_cons_of_neg (by rw [e]; exact hc)]
      exact ih

theorem Spec.SysTempo.absoluteConds (h : SysTempo k s s') (ha : ArgsTempo k a a') :
    Listwise (CondTempo k) (s.absoluteConds a) (s'.absoluteConds a') :=
  tempo_filter (h.conds.values.append (.cons ha.seq (.cons ha.esu ha.others.listwise)))

/-! ## The unit -/

theorem Listwise_left {β : Type _} {R : β → β → Prop} {l l' : List β} (h : Listwise R l l') :
    ∀ x ∈ l, ∃ y ∈ l', R x y := by
  induction h with
  | nil => intro x hx; cases hx
  | @cons c c' l l' h _ ih =>
    intro x hx
    rcases List.mem_cons.mp hx with rfl | hx
    · exact ⟨c', List.mem_cons_self, h⟩
    · obtain ⟨y, h1, h2⟩ := ih x hx
      exact ⟨y, List.mem_cons_of_mem _ h1, h2⟩

theorem Listwise_right {β : Type _} {R : β → β → Prop} {l l' : List β} (h : Listwise R l l') :
    ∀ y ∈ l', ∃ x ∈ l, R x y := by
  induction h with
  | nil => intro x hx; cases hx
  | @cons c c' l l' h _ ih =>
    intro x hx
    rcases List.mem_cons.mp hx with rfl | hx
    · exact ⟨c, List.mem_cons_self, h⟩
    · obtain ⟨y, h1, h2⟩ := ih x hx
      exact ⟨y, List.mem_cons_of_mem _ h1, h2⟩

theorem Listwise_nil {β : Type _} {R : β → β → Prop} {l l' : List β} (h : Listwise R l l') :
    l' = [] ↔ l = [] := by cases h <;> simp

theorem isGcd_tempo (hk : 0 < k) {qs qs' : List Qty} (h : Listwise (QtyTempo k) qs qs') {g g' : Rat}
    (hg : IsGcd (fun q => q ∈ qs) g) (hg' : IsGcd (fun q => q ∈ qs') g') : g' = k * g := by
  have h0 : k ≠ 0 := by grind
  have e : ∀ z : Rat, k⁻¹ * (k * z) = z := fun z => by
    rw [← Rat.mul_assoc, Rat.inv_mul_cancel k h0, Rat.one_mul]
  have e' : ∀ z : Rat, k * (k⁻¹ * z) = z := fun z => by
    rw [← Rat.mul_assoc, Rat.mul_inv_cancel k h0, Rat.one_mul]
  refine multiple_antisymm hg'.1 (Rat.mul_nonneg (Rat.le_of_lt hk) hg.1) ?_ ?_
  · refine hg'.2.2 _ (fun q' hq => ?_)
    obtain ⟨q, h1, h2⟩ := Listwise_right h q' hq
    obtain ⟨i, hi⟩ := hg.2.1 q h1
    have h2 : q'.val = k * q.val := h2
    exact ⟨i, by rw [h2, hi]; grind⟩
  · exact (fun h : Multiple g (k⁻¹ * g') => by
      obtain ⟨i, hi⟩ := h
      exact ⟨i, by rw [hi, ← e' ((i : Rat) * g')]; grind⟩) (hg.2.2 _ (fun q hq => by
      obtain ⟨q', h1, h2⟩ := Listwise_left h q hq
      obtain ⟨i, hi⟩ := hg'.2.1 q' h1
      have h2 : q'.val = k * q.val := h2
      refine ⟨i, ?_⟩
      rw [← e q.val, ← h2, hi]; grind))

theorem units_tempo (m : Mode) {cs cs' : List (Cond α κ W)} (h : Listwise (CondTempo k) cs cs') :
    Listwise (QtyTempo k)
      (cs.flatMap fun c => c.intervals ++ (if m = Mode.exactTime then c.fixedPoints else []))
      (cs'.flatMap fun c => c.intervals ++ (if m = Mode.exactTime then c.fixedPoints else [])) := by
  induction h with
  | nil => exact .nil
  | cons h _ ih =>
    rw [List.flatMap_cons, List.flatMap_cons]
    refine .append (.append (intervals_tempo h) ?_) ih
    split
    · exact points_tempo h
    · exact .nil

/-- The duration of a consideration set execution is `k` times as long. -/
theorem Spec.SysTempo.absoluteUnit (hk : 0 < k) (h : SysTempo k s s') {cs cs' : List (Cond α κ W)}
    (hc : Listwise (CondTempo k) cs cs') :
    ExceptRel (fun u u' => u' = k * u) (s.absoluteUnit cs) (s'.absoluteUnit cs') := by
  unfold Sys.absoluteUnit
  dsimp only
  rw [h.view.mode, h.view.queue, h.defaultUnit]
  have hu := units_tempo s.mode hc
  generalize (cs.flatMap fun c => c.intervals ++ (if s.mode = Mode.exactTime then c.fixedPoints else [])) = qs at hu ⊢
  generalize (cs'.flatMap fun c => c.intervals ++ (if s.mode = Mode.exactTime then c.fixedPoints else [])) = qs' at hu ⊢
  have e := isGcd_tempo hk hu (gcdIn_isGcd _ qs (minExp_le qs)) (gcdIn_isGcd _ qs' (minExp_le qs'))
  by_cases hq : qs = []
  · rw [if_pos hq, if_pos ((Listwise_nil hu).mpr hq)]; exact rfl
  · rw [if_neg hq, if_neg (fun x => hq ((Listwise_nil hu).mp x))]
    have key : ∀ d : Rat, ExceptRel (fun u u' => u' = k * u)
        (if d = 0 then .error Err.zeroDivisionError else
          .ok ((Sys.gcdIn (Sys.minExp qs) qs : Rat) / d * 10 ^ Sys.minExp qs))
        (if d = 0 then .error Err.zeroDivisionError else
          .ok ((Sys.gcdIn (Sys.minExp qs') qs' : Rat) / d * 10 ^ Sys.minExp qs')) := by
      intro d
      by_cases hd : d = 0
      · rw [if_pos hd, if_pos hd]; exact rfl
      · rw [if_neg hd, if_neg hd]
        show _ / _ * _ = k * (_ / _ * _)
        rw [Rat.div_def, Rat.div_def]
        grind
    exact key _

theorem foldl_tempo (hk : 0 < k) {qs qs' : List Qty} (h : Listwise (QtyTempo k) qs qs') : ∀ z : Rat,
    qs'.foldl (fun m x => min m x.val) (k * z) = k * qs.foldl (fun m x => min m x.val) z := by
  induction h with
  | nil => intro z; rfl
  | @cons q q' _ _ h _ ih =>
    intro z
    have h : q'.val = k * q.val := h
    rw [List.foldl_cons, List.foldl_cons, h, tempo_min hk, ih]

theorem firstPoint_tempo (hk : 0 < k) {c c' : Cond α κ W} (h : CondTempo k c c') :
    Sys.firstPoint c' = k * Sys.firstPoint c := by
  have hp := points_tempo h
  unfold Sys.firstPoint
  generalize c.fixedPoints = x at hp ⊢
  generalize c'.fixedPoints = x' at hp ⊢
  cases hp with
  | nil => exact (Rat.mul_zero k).symm
  | @cons q q' _ _ h hp =>
    have h : q'.val = k * q.val := h
    dsimp only
    rw [h]; exact foldl_tempo hk hp _

theorem advanceTo_tempo (hk : 0 < k) {cs cs' : List (Cond α κ W)} (h : Listwise (CondTempo k) cs cs')
    (z : Rat) : Sys.advanceTo (k * z) cs' = k * Sys.advanceTo z cs := by
  cases h with
  | nil => rfl
  | cons h hs =>
    simp only [Sys.advanceTo]
    rw [firstPoint_tempo hk h, ← tempo_max hk]
    congr 1
    clear h
    generalize Sys.firstPoint _ = w
    induction hs generalizing w with
    | nil => rfl
    | cons h _ ih => rw [List.foldl_cons, List.foldl_cons, firstPoint_tempo hk h, tempo_min hk, ih]

/-! ## The beginning -/

theorem Spec.SysTempo.setupAbsolute (hk : 0 < k) (h : SysTempo k s s') (ha : ArgsTempo k a a') :
    PairTempo k (s.setupAbsolute a) (s'.setupAbsolute a') := by
  have hl := h.absoluteConds ha
  have hc := h.view.clock a.id
  have hu := h.absoluteUnit hk hl
  unfold Sys.setupAbsolute
  dsimp only
  rw [ha.id]
  by_cases e : s.absoluteConds a = []
  · rw [if_pos e, if_pos ((Listwise_nil hl).mpr e)]
    exact ⟨rfl, h.setClock a.id ⟨hc.tree, ⟨hc.time.at_, rfl, hc.time.absolute, fun x => by cases x⟩, hc.previous⟩⟩
  · rw [if_neg e, if_neg (fun x => e ((Listwise_nil hl).mp x))]
    rcases f : s.absoluteUnit (s.absoluteConds a) with er | u <;>
      rcases f' : s'.absoluteUnit (s'.absoluteConds a') with er' | u' <;> rw [f, f'] at hu
    · cases hu; exact ⟨rfl, h⟩
    · exact hu.elim
    · exact hu.elim
    · refine ⟨rfl, h.setClock a.id ⟨hc.tree, ⟨hc.time.at_, rfl, ?_, fun _ => hu⟩, hc.previous⟩⟩
      show Sys.advanceTo _ _ = _
      rw [hc.time.absolute]
      exact advanceTo_tempo hk hl _

mutual
theorem setOwner_tempo (v : Option α) : ∀ {c c' : Cond α κ W}, CondTempo k c c' → ∀ st : Store α κ,
    setOwner v c' st = setOwner v c st
  | .leaf _ _, _, .leaf _ _, _ => rfl
  | .whileNot _ _, _, .whileNot _ _, _ => rfl
  | .all _ _, _, .all _ h, _ => by simp only [setOwner]; exact setOwners_tempo v h _
  | .any _ _, _, .any _ h, _ => by simp only [setOwner]; exact setOwners_tempo v h _
  | .not _ _, _, .not _ h, _ => by simp only [setOwner]; exact setOwner_tempo v h _
  | .nwhen _ _ _, _, .nwhen _ _ h, _ => by simp only [setOwner]; exact setOwner_tempo v h _
theorem setOwners_tempo (v : Option α) : ∀ {c c' : List (Cond α κ W)}, CondsTempo k c c' →
    ∀ st : Store α κ, setOwners v c' st = setOwners v c st
  | [], _, .nil, _ => rfl
  | c :: _, c' :: _, .cons h h2, st => by
    have e : c'.oid = c.oid := by cases h <;> rfl
    simp only [setOwners, e, setOwner_tempo v h, setOwners_tempo v h2]
end

theorem defaultLeaves_tempo : ∀ (ds : List α) (x : Nat),
    CondsTempo k (defaultLeaves x ds : List (Cond α κ W)) (defaultLeaves x ds)
  | [], _ => .nil
  | _ :: ds, x => .cons (.leaf _ (.same trivial)) (defaultLeaves_tempo ds (x + 1))

theorem defaultCond_tempo (x : Nat) : ∀ (ds : List α),
    CondTempo k (Sys.defaultCond x ds : Cond α κ W) (Sys.defaultCond x ds)
  | [] => .leaf _ (.same trivial)
  | [d] => .leaf _ (.same trivial)
  | d :: d' :: ds => by
    have e : (Sys.defaultCond x (d :: d' :: ds) : Cond α κ W) =
        .all x (defaultLeaves (x + 1) (d :: d' :: ds)) := by
      simp only [Sys.defaultCond]; rw [defaultLeaves_eq, Nat.add_zero]
    rw [e]
    exact .all _ (defaultLeaves_tempo _ _)

theorem Spec.SysTempo.addDefault (h : SysTempo k s s') (n : α) (deps : List α) :
    SysTempo k ((s.alloc (deps.length + 1)).addBasic n (Sys.defaultCond s.store.fresh deps))
      ((s'.alloc (deps.length + 1)).addBasic n (Sys.defaultCond s'.store.fresh deps)) := by
  refine ⟨h.view, ?_, ?_, h.defaultUnit⟩
  · rw [h.store]
    exact h.conds.set n (defaultCond_tempo _ _)
  · show setOwner _ _ _ = setOwner _ _ _
    rw [h.store]
    unfold Sys.alloc
    rw [h.store]

theorem Spec.SysTempo.validateConditions : ∀ (ns : List α) {s s' : Sys α κ W}, SysTempo k s s' →
    PairTempo k (Sys.validateConditions ns s) (Sys.validateConditions ns s')
  | [], _, _, h => ⟨rfl, h⟩
  | n :: ns, s, s', h => by
    simp only [Sys.validateConditions]
    rw [h.view.graph]
    rcases h.conds.get n with ⟨h1, h2⟩ | ⟨c, c', h1, h2, _⟩
    · rw [h1, h2]
      dsimp only
      cases Dict.get? s.graph n with
      | none => exact ⟨rfl, h⟩
      | some deps => exact Spec.SysTempo.validateConditions ns (h.addDefault n deps)
    · rw [h1, h2]
      exact Spec.SysTempo.validateConditions ns h

/-- The beginnings of the two runs correspond. -/
theorem Spec.SysTempo.start (hk : 0 < k) (h : SysTempo k s s') (ha : ArgsTempo k a a') :
    PairTempo k (s.start a) (s'.start a') := by
  unfold Sys.start Sys.validateRunState
  rw [h.view.graph, h.view.nodes]
  cases toposort s.graph with
  | error e => exact ⟨rfl, h⟩
  | ok _ =>
    dsimp only
    obtain ⟨k1, k2⟩ := h.validateConditions s.nodes
    rcases e : Sys.validateConditions s.nodes s with ⟨s1, r⟩
    rcases e' : Sys.validateConditions s.nodes s' with ⟨s1', r'⟩
    rw [e, e'] at k1 k2
    dsimp only at k1 k2
    subst k1
    rcases r' with _ | er
    · dsimp only
      obtain ⟨k3, k4⟩ := (k2.getClock a.id).setupAbsolute hk ha
      rw [ha.id]
      rcases f : (s1.getClock a.id).setupAbsolute a with ⟨s2, q⟩
      rcases f' : (s1'.getClock a.id).setupAbsolute a' with ⟨s2', q'⟩
      rw [f, f'] at k3 k4
      dsimp only at k3 k4
      subst k3
      rcases q' with er | ab
      · exact ⟨rfl, k4⟩
      · dsimp only
        rw [ha.base]
        obtain ⟨k5, k6⟩ := k4.initCounts a.id a.base
        rcases g : s2.initCounts a.id a.base with ⟨s3, p⟩
        rcases g' : s2'.initCounts a.id a.base with ⟨s3', p'⟩
        rw [g, g'] at k5 k6
        dsimp only at k5 k6
        subst k5
        rcases p' with _ | er
        · dsimp only
          have k7 := k6.resetUseable a.id
          have k8 := k7.resetTotal .environment_state_update a.id
          rcases m : (s3.resetUseable a.id).resetTotal .environment_state_update a.id with x | u <;>
            rcases m' : (s3'.resetUseable a.id).resetTotal .environment_state_update a.id with x' | u' <;>
            rw [m, m'] at k8
          · cases k8; exact ⟨rfl, k7⟩
          · exact k8.elim
          · exact k8.elim
          · exact ⟨rfl, k8⟩
        · exact ⟨rfl, k6⟩
    · exact ⟨rfl, k2⟩

/-! ## One step -/

theorem Spec.SysTempo.endPass (h : SysTempo k s s') (ha : ArgsTempo k a a') (abs changed : Bool) :
    PairTempo k (s.endPass a abs changed) (s'.endPass a' abs changed) := by
  unfold Sys.endPass
  rw [ha.id]
  split
  · obtain ⟨k1, k2⟩ := h.record a.id false []
    rcases e : s.record a.id false [] with ⟨t, r⟩
    rcases e' : s'.record a.id false [] with ⟨t', r'⟩
    rw [e, e'] at k1 k2
    dsimp only at k1 k2
    subst k1
    rcases r' with _ | er
    · exact ⟨rfl, k2⟩
    · exact ⟨rfl, k2⟩
  · have k1 := h.incrClock a.id .pass
    rcases m : s.incrClock a.id .pass with x | u <;> rcases m' : s'.incrClock a.id .pass with x' | u' <;>
      rw [m, m'] at k1
    · cases k1; exact ⟨rfl, h⟩
    · exact k1.elim
    · exact k1.elim
    · exact ⟨rfl, k1⟩

theorem Spec.SysTempo.endChoice (h : SysTempo k s s') (ha : ArgsTempo k a a') (abs : Bool) (c : Choice α) :
    PairTempo k (s.endChoice a abs c) (s'.endChoice a' abs c) := by
  unfold Sys.endChoice
  rw [ha.id]
  dsimp only
  split
  · obtain ⟨k1, k2⟩ := h.record a.id abs c.exec
    rcases e : s.record a.id abs c.exec with ⟨t, r⟩
    rcases e' : s'.record a.id abs c.exec with ⟨t', r'⟩
    rw [e, e'] at k1 k2
    dsimp only at k1 k2
    subst k1
    rcases r' with _ | er
    · exact ⟨rfl, k2⟩
    · exact ⟨rfl, k2⟩
  · exact ⟨rfl, h⟩

theorem Spec.SysTempo.choose (hk : 0 < k) (h : SysTempo k s s') (ha : ArgsTempo k a a') (hn : Aware s a)
    (abs : Bool) (c : Choice α) : PairTempo k (s.choose a abs c) (s'.choose a' abs c) := by
  unfold Sys.choose
  split
  · split
    · exact ⟨rfl, h⟩
    · exact h.endChoice ha abs c
  · rename_i n ns _
    rw [ha.id]
    split
    · exact ⟨rfl, h⟩
    · obtain ⟨k1, k2⟩ := h.considerNode hk hn n
      rcases e : s.considerNode a.id n with ⟨t, r⟩
      rcases e' : s'.considerNode a.id n with ⟨t', r'⟩
      rw [e, e'] at k1 k2
      dsimp only at k1 k2
      subst k1
      rcases r' with er | b
      · exact ⟨rfl, k2⟩
      · cases b
        · exact ⟨rfl, k2⟩
        · exact ⟨rfl, k2⟩

theorem Aware.same {t : Sys α κ W} (h : Aware s a) (hc : t.clocks = s.clocks) (hd : t.conds = s.conds) :
    Aware t a := by
  intro c hu hr
  have e : t.clock a.id = s.clock a.id := by unfold View.clock; rw [hc]
  rw [e]
  refine h c ?_ hr
  unfold Consulted at hu ⊢
  rw [← hd]; exact hu

theorem Aware.incr {t : Sys α κ W} (h : Aware s a) {ts} (hi : s.incrClock a.id ts = .ok t) : Aware t a := by
  unfold Sys.incrClock at hi
  rcases hc : (s.clock a.id).incr ts with e | c
  · rw [hc] at hi; cases hi
  · rw [hc] at hi
    cases hi
    intro d hu hr
    rw [Sys.clock_setClock, (incr_abs hc).1]
    exact h d hu hr

theorem Sys.continues_kept (s : Sys α κ W) (a : RunArgs α κ W) :
    (s.continues a).1.clocks = s.clocks ∧ (s.continues a).1.conds = s.conds := by
  unfold Sys.continues
  rcases e : s.evalCond a.id a.esu with ⟨t, r⟩
  have ht : t = (s.evalCond a.id a.esu).1 := by rw [e]
  have h1 : t.clocks = s.clocks := by rw [ht]; rfl
  have h2 : t.conds = s.conds := by rw [ht]; rfl
  rcases r with x | b
  · exact ⟨h1, h2⟩
  · cases b
    · dsimp only
      rcases f : t.evalCond a.id a.seq with ⟨u, q⟩
      have hu : u = (t.evalCond a.id a.seq).1 := by rw [f]
      have g1 : u.clocks = s.clocks := by rw [hu]; exact h1
      have g2 : u.conds = s.conds := by rw [hu]; exact h2
      rcases q with x | b
      · exact ⟨g1, g2⟩
      · exact ⟨g1, g2⟩
    · exact ⟨h1, h2⟩

theorem Spec.SysTempo.finish (hk : 0 < k) (h : SysTempo k s s') (ha : ArgsTempo k a a') (hn : Aware s a) :
    PairTempo k (s.finish a) (s'.finish a') := by
  unfold Sys.finish
  rw [ha.id, ha.skip]
  have key : ∀ t t' : Sys α κ W, SysTempo k t t' → Aware t a →
      PairTempo (β := PC α × Option (Event α)) k (match t.evalCond a.id a.seq with
        | (s'', .error e) => (s'', .raised e, some .stop)
        | (s'', .ok _) => (s'', .returned, some .stop))
      (match t'.evalCond a.id a'.seq with
        | (s'', .error e) => (s'', .raised e, some .stop)
        | (s'', .ok _) => (s'', .returned, some .stop)) := by
    intro t t' ht hn
    obtain ⟨k1, k2⟩ := ht.evalCond hk a.id ha.seq (hn _ (.inr (.inl rfl)))
    rcases e : t.evalCond a.id a.seq with ⟨t, r⟩
    rcases e' : t'.evalCond a.id a'.seq with ⟨t', r'⟩
    rw [e, e'] at k1 k2
    dsimp only at k1 k2
    subst k1
    rcases r' with er | b
    · exact ⟨rfl, k2⟩
    · exact ⟨rfl, k2⟩
  cases a.skip
  · simp only [Bool.false_eq_true, if_false]
    have k1 := h.incrClock a.id .environment_state_update
    rcases m : s.incrClock a.id .environment_state_update with x | u <;>
      rcases m' : s'.incrClock a.id .environment_state_update with x' | u' <;>
      rw [m, m'] at k1
    · cases k1; exact ⟨rfl, h⟩
    · exact k1.elim
    · exact k1.elim
    · exact key u u' k1 (hn.incr m)
  · simp only [if_true]
    exact key s s' h hn

theorem Spec.SysTempo.step (hk : 0 < k) (h : SysTempo k s s') (ha : ArgsTempo k a a') (abs : Bool) (pc : PC α)
    (hn : (∃ e, pc = .raised e) ∨ Aware s a) : PairTempo k (s.step a abs pc) (s'.step a' abs pc) := by
  rcases hn with ⟨e, rfl⟩ | hn
  · exact ⟨rfl, h⟩
  have hcs := Sys.continues_kept s a
  cases pc with
  | outer =>
    simp only [Sys.step]
    obtain ⟨k1, k2⟩ := h.continues hk ha hn
    rcases e : s.continues a with ⟨t, r⟩
    rcases e' : s'.continues a' with ⟨t', r'⟩
    rw [e, e'] at k1 k2
    rw [e] at hcs
    dsimp only at k1 k2 hcs
    subst k1
    rcases r' with x | x
    · exact ⟨rfl, k2⟩
    · cases x
      · exact k2.finish hk ha (hn.same hcs.1 hcs.2)
      · dsimp only
        rw [ha.id]
        have k3 := k2.resetTotal .pass a.id
        rcases m : t.resetTotal .pass a.id with x | u <;> rcases m' : t'.resetTotal .pass a.id with x' | u' <;>
          rw [m, m'] at k3
        · cases k3; exact ⟨rfl, k2⟩
        · exact k3.elim
        · exact k3.elim
        · exact ⟨rfl, k3⟩
  | inner idx changed =>
    simp only [Sys.step]
    rw [h.view.queue]
    cases s.queue[idx]? with
    | none => exact h.endPass ha abs changed
    | some layer =>
      dsimp only
      obtain ⟨k1, k2⟩ := h.continues hk ha hn
      rcases e : s.continues a with ⟨t, r⟩
      rcases e' : s'.continues a' with ⟨t', r'⟩
      rw [e, e'] at k1 k2
      dsimp only at k1 k2
      subst k1
      rcases r' with x | x
      · exact ⟨rfl, k2⟩
      · cases x
        · exact k2.endPass ha abs changed
        · exact ⟨rfl, k2⟩
  | choosing c => exact h.choose hk ha hn abs c
  | yielded idx changed =>
    simp only [Sys.step]
    rw [ha.id]
    have k3 := h.incrClock a.id .consideration_set_execution
    rcases m : s.incrClock a.id .consideration_set_execution with x | u <;>
      rcases m' : s'.incrClock a.id .consideration_set_execution with x' | u' <;> rw [m, m'] at k3
    · cases k3; exact ⟨rfl, h⟩
    · exact k3.elim
    · exact k3.elim
    · exact ⟨rfl, k3⟩
  | yieldedEmpty =>
    simp only [Sys.step]
    rw [ha.id]
    have k3 := h.incrClock a.id .consideration_set_execution
    rcases m : s.incrClock a.id .consideration_set_execution with x | u <;>
      rcases m' : s'.incrClock a.id .consideration_set_execution with x' | u' <;> rw [m, m'] at k3
    · cases k3; exact ⟨rfl, h⟩
    · exact k3.elim
    · exact k3.elim
    · dsimp only
      have k3 : SysTempo k u u' := k3
      have k4 := k3.incrClock a.id .pass
      rcases m : u.incrClock a.id .pass with x | w <;>
        rcases m' : u'.incrClock a.id .pass with x' | w' <;> rw [m, m'] at k4
      · cases k4; exact ⟨rfl, k3⟩
      · exact k4.elim
      · exact k4.elim
      · exact ⟨rfl, k4⟩
  | returned => exact ⟨rfl, h⟩
  | raised e => exact ⟨rfl, h⟩

theorem Aware.step {abs : Bool} {pc : PC α} (hn : (∃ e, pc = .raised e) ∨ Aware s a) :
    (∃ e, (s.step a abs pc).2.1 = .raised e) ∨ Aware (s.step a abs pc).1 a := by
  rcases hn with ⟨e, rfl⟩ | hn
  · exact .inl ⟨e, rfl⟩
  by_cases hr : ∃ e, (s.step a abs pc).2.1 = .raised e
  · exact .inl hr
  right
  have hc := (Sys.step_touches (s := s) (a := a) (Q := fun _ => True) (fun _ _ _ _ _ => trivial) (fun _ _ => trivial)
    (fun _ _ => trivial) abs pc).conds
  intro c hu hrep
  have hu' : Consulted s a c := by
    unfold Consulted at hu ⊢
    rw [← hc]; exact hu
  exact ((Sys.step_stepR (s := s) (a := a) (abs := abs) (pc := pc) rfl).absClock
    (fun e he => hr ⟨e, he⟩) (hn c hu' hrep)).1

theorem defaultLeaves_repeat : ∀ (ds : List α) (x : Nat),
    anyRepeat (defaultLeaves x ds : List (Cond α κ W)) = false
  | [], _ => rfl
  | _ :: ds, x => by
    show (false || _) = false
    rw [defaultLeaves_repeat ds (x + 1)]; rfl

theorem defaultCond_repeat (x : Nat) : ∀ (ds : List α),
    hasRepeat (Sys.defaultCond x ds : Cond α κ W) = false
  | [] => rfl
  | [d] => rfl
  | d :: d' :: ds => by
    have e : (Sys.defaultCond x (d :: d' :: ds) : Cond α κ W) =
        .all x (defaultLeaves (x + 1) (d :: d' :: ds)) := by
      simp only [Sys.defaultCond]; rw [defaultLeaves_eq, Nat.add_zero]
    rw [e]
    simp only [hasRepeat]
    exact defaultLeaves_repeat _ _

theorem validateConditions_seen : ∀ (ns : List α) (s : Sys α κ W),
    (∀ n c, (n, c) ∈ s.conds → hasRepeat c = true → c.isAbsolute = true) →
    ∀ n c, (n, c) ∈ (Sys.validateConditions ns s).1.conds → hasRepeat c = true → c.isAbsolute = true
  | [], _, h => h
  | m :: ns, s, h => by
    simp only [Sys.validateConditions]
    split
    · exact validateConditions_seen ns s h
    · split
      · exact h
      · refine validateConditions_seen ns _ ?_
        intro n c hc hr
        rcases Dict.mem_of_mem_set hc with he | hc
        · cases he
          rw [defaultCond_repeat] at hr; cases hr
        · exact h n c hc hr

theorem Aware.start {abs : Bool} (hn : NoneHidden s a) {t : Sys α κ W} (h : s.start a = (t, .ok abs)) :
    Aware t a := by
  obtain ⟨s1, h1, h2, _⟩ := (Sys.start_ok h).conds
  have hs : ∀ n c, (n, c) ∈ t.conds → hasRepeat c = true → c.isAbsolute = true := by
    rw [h2]
    unfold Sys.validateRunState at h1
    split at h1
    · cases h1
    · have := validateConditions_seen s.nodes s (fun n c hc => hn c (.inr (.inr ⟨n, hc⟩)))
      rw [h1] at this
      exact this
  intro c hu hr
  have ha : c.isAbsolute = true := by
    rcases hu with hu | hu | ⟨n, hu⟩
    · exact hn c (.inl hu) hr
    · exact hn c (.inr (.inl hu)) hr
    · exact hs n c hu hr
  rcases Sys.start_abs h with ⟨_, h3, _⟩ | ⟨_, _, u, _, h3⟩
  · exfalso
    have hm : c ∈ t.absoluteConds a := by
      unfold Sys.absoluteConds
      refine List.mem_filter.mpr ⟨?_, ha⟩
      rw [List.mem_append]
      rcases hu with hu | hu | ⟨n, hu⟩
      · right; rw [hu]; simp
      · right; rw [hu]; simp
      · left; exact List.mem_map.mpr ⟨(n, c), hu, rfl⟩
    rw [h3] at hm; cases hm
  · rw [h3]

/-! ## Whole runs -/

theorem Listwise_entry {h h' : History α κ W} (he : Listwise (EntryTempo k) h h') :
    h'.map Entry.ev = h.map Entry.ev := by
  induction he with
  | nil => rfl
  | cons x _ ih => rw [List.map_cons, List.map_cons, ih, x.ev]

theorem Spec.SysTempo.resumed (h : SysTempo k s s') (w : List (List α) → World α κ W) (ys) (pc : PC α) :
    SysTempo k (resumed w ys s pc) (Spec.resumed w ys s' pc) := by
  unfold Spec.resumed
  split
  · exact ⟨{ h.view with world := rfl }, h.conds, h.store, h.defaultUnit⟩
  · exact h

theorem Aware.resumed {pc : PC α} (h : (∃ e, pc = .raised e) ∨ Aware s a) (w : List (List α) → World α κ W) (ys) :
    (∃ e, pc = .raised e) ∨ Aware (Spec.resumed w ys s pc) a := by
  rcases h with h | h
  · exact .inl h
  · right
    unfold Spec.resumed
    split
    · exact h
    · exact h

theorem Aware.scripted {w : List (List α) → World α κ W} {abs : Bool} {s0 : Sys α κ W} {h : History α κ W} {pc : PC α}
    (hn : NoneHidden s0 a) (hr : Scripted w a s0 abs h s pc) : (∃ e, pc = .raised e) ∨ Aware s a := by
  induction hr with
  | start h => exact .inr (.start hn h)
  | @step h s t pc pc' ev _ hst ih =>
    have := Aware.step (abs := abs) (Aware.resumed ih w (yields h))
    rw [hst] at this
    exact this

theorem tempo_forward (hk : 0 < k) {w : List (List α) → World α κ W} {abs : Bool} {s0 s0' : Sys α κ W}
    {h : History α κ W} {pc : PC α} (h0 : SysTempo k s0 s0') (ha : ArgsTempo k a a')
    (hn : NoneHidden s0 a) (hr : Scripted w a s0 abs h s pc) :
    ∃ h' s', Scripted w a' s0' abs h' s' pc ∧ Listwise (EntryTempo k) h h' ∧ SysTempo k s s' := by
  induction hr with
  | start h =>
    obtain ⟨k1, k2⟩ := h0.start hk ha
    rw [h] at k1 k2
    exact ⟨[], _, .start (Prod.ext rfl k1), .nil, k2⟩
  | @step h s t pc pc' ev hr hst ih =>
    obtain ⟨h', s', g1, g2, g3⟩ := ih
    have hy := yields_of_events (Listwise_entry g2)
    have g4 := g3.resumed w (yields h) pc
    obtain ⟨k1, k2⟩ := g4.step hk ha abs pc (Aware.resumed (Aware.scripted hn hr) w _)
    rw [hst] at k1 k2
    refine ⟨_, _, .step g1 (Prod.ext rfl (by rw [hy]; exact k1)), ?_, by rw [hy]; exact k2⟩
    refine g2.append ?_
    rw [hy]
    cases ev with
    | none => exact .nil
    | some x => exact .cons ⟨rfl, g4, k2⟩ .nil

theorem tempo_backward (hk : 0 < k) {w : List (List α) → World α κ W} {abs : Bool} {s0 s0' : Sys α κ W}
    {h' : History α κ W} {pc : PC α} (h0 : SysTempo k s0 s0') (ha : ArgsTempo k a a')
    (hn : NoneHidden s0 a) (hr : Scripted w a' s0' abs h' s' pc) :
    ∃ h s, Scripted w a s0 abs h s pc ∧ Listwise (EntryTempo k) h h' ∧ SysTempo k s s' := by
  induction hr with
  | start h =>
    obtain ⟨k1, k2⟩ := h0.start hk ha
    rw [h] at k1 k2
    exact ⟨[], _, .start (Prod.ext rfl k1.symm), .nil, k2⟩
  | @step h' s' t' pc pc' ev hr hst ih =>
    obtain ⟨h, s, g1, g2, g3⟩ := ih
    have hy := yields_of_events (Listwise_entry g2)
    have g4 := g3.resumed w (yields h) pc
    obtain ⟨k1, k2⟩ := g4.step hk ha abs pc (Aware.resumed (Aware.scripted hn g1) w _)
    rw [hy] at hst ⊢
    rw [hst] at k1 k2
    refine ⟨_, _, .step g1 (Prod.ext rfl k1.symm), ?_, k2⟩
    refine g2.append ?_
    cases ev with
    | none => exact .nil
    | some x => exact .cons ⟨rfl, g4, k2⟩ .nil

end GS
