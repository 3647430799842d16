import Verif.Spec.Equiv
import Verif.OrderStart
import Verif.Share
import Verif.AbsUnit
/-!
# Lemmas: replacing conditions by interchangeable ones
-/

set_option linter.unusedSectionVars false

namespace GS
open Spec
variable {α κ W : Type _} [DecidableEq α] [DecidableEq κ]
variable {b b' : Store α κ} {a a' : RunArgs α κ W} {abs : Bool} {s s' t t' : Sys α κ W}

theorem Spec.OwnersKept.refl (st : Store α κ) : OwnersKept st st :=
  ⟨Nat.le_refl _, fun _ _ => rfl⟩

theorem Spec.OwnersKept.trans {s1 s2 s3 : Store α κ} (h : OwnersKept s1 s2) (k : OwnersKept s2 s3) :
    OwnersKept s1 s3 :=
  ⟨Nat.le_trans h.1 k.1, fun o ho => (k.2 o (Nat.lt_of_lt_of_le ho h.1)).trans (h.2 o ho)⟩

theorem StoreStep.ownersKept {id : Option κ} {st st' : Store α κ} (h : StoreStep id st st') :
    OwnersKept st st' :=
  ⟨Nat.le_of_eq h.fresh.symm, fun o _ => by rw [h.owner]⟩

/-- Interchangeable conditions stay so in later states. -/
theorem Spec.Interchangeable.later {c c' : Cond α κ W} {d d' : Store α κ}
    (h : Interchangeable b b' c c') (k : OwnersKept b d) (k' : OwnersKept b' d') :
    Interchangeable d d' c c' :=
  ⟨fun v id st st' h1 h2 h3 => h.same v id st st' (k.trans h1) (k'.trans h2) h3,
    h.absolute, h.intervals, h.points⟩

theorem Spec.Pairwise2.imp {β : Type _} {R Q : β → β → Prop} (hi : ∀ x y, R x y → Q x y)
    {d d' : Dict α β} (h : Pairwise2 R d d') : Pairwise2 Q d d' := by
  induction h with
  | nil => exact .nil
  | cons h _ ih => exact .cons (hi _ _ h) ih

theorem Spec.Listwise.imp {β : Type _} {R Q : β → β → Prop} (hi : ∀ x y, R x y → Q x y)
    {d d' : List β} (h : Listwise R d d') : Listwise Q d d' := by
  induction h with
  | nil => exact .nil
  | cons h _ ih => exact .cons (hi _ _ h) ih

theorem Spec.Pairwise2.get {β : Type _} {R : β → β → Prop} {d d' : Dict α β}
    (h : Pairwise2 R d d') (n : α) :
    (Dict.get? d n = none ∧ Dict.get? d' n = none) ∨
    ∃ c c', Dict.get? d n = some c ∧ Dict.get? d' n = some c' ∧ R c c' := by
  induction h with
  | nil => exact .inl ⟨rfl, rfl⟩
  | @cons m c c' d d' h _ ih =>
    by_cases e : m = n
    · subst e; exact .inr ⟨c, c', by simp [Dict.get?], by simp [Dict.get?], h⟩
    · rcases ih with ⟨h1, h2⟩ | ⟨x, y, h1, h2, h3⟩
      · exact .inl ⟨by simp [Dict.get?, e, h1], by simp [Dict.get?, e, h2]⟩
      · exact .inr ⟨x, y, by simp [Dict.get?, e, h1], by simp [Dict.get?, e, h2], h3⟩

theorem Spec.Pairwise2.set {β : Type _} {R : β → β → Prop} {d d' : Dict α β}
    (h : Pairwise2 R d d') (n : α) {c c' : β} (hc : R c c') :
    Pairwise2 R (Dict.set d n c) (Dict.set d' n c') := by
  induction h with
  | nil => exact .cons hc .nil
  | @cons m x x' d d' h h2 ih =>
    by_cases e : m = n
    · subst e; simp only [Dict.set, if_true]; exact .cons hc h2
    · simp only [Dict.set, if_neg e]; exact .cons h ih

theorem Spec.Pairwise2.values {β : Type _} {R : β → β → Prop} {d d' : Dict α β}
    (h : Pairwise2 R d d') : Listwise R (d.map Prod.snd) (d'.map Prod.snd) := by
  induction h with
  | nil => exact .nil
  | cons h _ ih => exact .cons h ih

theorem Spec.Listwise.append {β : Type _} {R : β → β → Prop} {d d' e e' : List β}
    (h : Listwise R d d') (k : Listwise R e e') : Listwise R (d ++ e) (d' ++ e') := by
  induction h with
  | nil => exact k
  | cons h _ ih => exact .cons h ih

namespace Sys

/-- The scheduler with other conditions and condition objects. -/
def recond (s : Sys α κ W) (d : Dict α (Cond α κ W)) (st : Store α κ) : Sys α κ W :=
  { s with conds := d, store := st }

variable (d : Dict α (Cond α κ W)) (st : Store α κ)

theorem getClock_recond (s : Sys α κ W) (id : Option κ) :
    (s.recond d st).getClock id = (s.getClock id).recond d st := by
  unfold getClock
  have e2 : (s.recond d st).clocks = s.clocks := rfl
  rw [e2]
  cases Dict.get? s.clocks id <;> rfl

theorem initTotal_recond (s : Sys α κ W) (id base) :
    (s.recond d st).initTotal id base = (s.initTotal id base).map fun s => s.recond d st := by
  unfold initTotal
  have e : (s.recond d st).countsTotal = s.countsTotal := rfl
  rw [e]
  cases Dict.get? s.countsTotal id with
  | some _ => rfl
  | none =>
    cases base with
    | none => rfl
    | some b => dsimp only; cases Dict.get? s.countsTotal b <;> rfl

theorem initUseable_recond (s : Sys α κ W) (id base) :
    (s.recond d st).initUseable id base = (s.initUseable id base).map fun s => s.recond d st := by
  unfold initUseable
  have e : (s.recond d st).countsUseable = s.countsUseable := rfl
  rw [e]
  cases Dict.get? s.countsUseable id with
  | some _ => rfl
  | none =>
    cases base with
    | none => rfl
    | some b => dsimp only; cases Dict.get? s.countsUseable b <;> rfl

theorem initList_recond (s : Sys α κ W) (id base) :
    (s.recond d st).initList id base = (s.initList id base).map fun s => s.recond d st := by
  unfold initList
  have e : (s.recond d st).execList = s.execList := rfl
  rw [e]
  cases Dict.get? s.execList id with
  | some _ => rfl
  | none =>
    cases base with
    | none => rfl
    | some b => dsimp only; cases Dict.get? s.execList b <;> rfl

theorem initClock_recond (s : Sys α κ W) (id base) :
    (s.recond d st).initClock id base = (s.initClock id base).map fun s => s.recond d st := by
  unfold initClock
  have e : (s.recond d st).clocks = s.clocks := rfl
  rw [e]
  cases Dict.get? s.clocks id with
  | some _ => rfl
  | none =>
    cases base with
    | none => rfl
    | some b => dsimp only; cases Dict.get? s.clocks b <;> rfl

theorem initCounts_recond (s : Sys α κ W) (id base) :
    (s.recond d st).initCounts id base =
      ((s.initCounts id base).1.recond d st, (s.initCounts id base).2) := by
  unfold initCounts
  rw [initTotal_recond]
  cases s.initTotal id base with
  | error e => rfl
  | ok s1 =>
    dsimp only [Except.map]
    rw [initUseable_recond]
    cases s1.initUseable id base with
    | error e => rfl
    | ok s2 =>
      dsimp only [Except.map]
      rw [initList_recond]
      cases s2.initList id base with
      | error e => rfl
      | ok s3 =>
        dsimp only [Except.map]
        rw [initClock_recond]
        cases s3.initClock id base <;> rfl

theorem resetTotal_recond (s : Sys α κ W) (ts id) :
    (s.recond d st).resetTotal ts id = (s.resetTotal ts id).map fun s => s.recond d st := by
  unfold resetTotal
  have e : (s.recond d st).countsTotal = s.countsTotal := rfl
  rw [e]
  cases Dict.get? s.countsTotal id <;> rfl

theorem incrClock_recond (s : Sys α κ W) (id ts) :
    (s.recond d st).incrClock id ts = (s.incrClock id ts).map fun s => s.recond d st := by
  unfold incrClock
  have e : (s.recond d st).clock id = s.clock id := rfl
  rw [e]
  cases (s.clock id).incr ts <;> rfl

theorem fire_recond (s : Sys α κ W) (id n) :
    (s.recond d st).fire id n = (s.fire id n).map fun s => s.recond d st := by
  unfold fire
  have e1 : (s.recond d st).countsTotal = s.countsTotal := rfl
  have e2 : (s.recond d st).countsUseable = s.countsUseable := rfl
  have e3 : (s.recond d st).nodes = s.nodes := rfl
  rw [e1, e2, e3]
  cases Dict.get? s.countsTotal id with
  | none => rfl
  | some f =>
    dsimp only
    split
    · cases Dict.get? s.countsUseable id <;> rfl
    · rfl

theorem record_recond (s : Sys α κ W) (id abs set) :
    (s.recond d st).record id abs set = ((s.record id abs set).1.recond d st, (s.record id abs set).2) := by
  unfold record
  have e1 : (s.recond d st).execList = s.execList := rfl
  rw [e1]
  cases Dict.get? s.execList id with
  | none => rfl
  | some l =>
    dsimp only
    split
    · have e2 : (s.recond d st).timestamps = s.timestamps := rfl
      rw [e2]
      cases Dict.get? s.timestamps id <;> rfl
    · rfl

end Sys

/-- Two schedulers during runs that differ in interchangeable conditions only. -/
structure Twin (b b' : Store α κ) (s s' : Sys α κ W) : Prop where
  eq : s' = s.recond s'.conds s'.store
  fresh : s'.store.fresh = s.store.fresh
  sat : s'.store.sat = s.store.sat
  kept : OwnersKept b s.store
  kept' : OwnersKept b' s'.store
  conds : Pairwise2 (Interchangeable b b') s.conds s'.conds

/-- Corresponding results. -/
def Twins {β : Type _} (b b' : Store α κ) (x y : Sys α κ W × β) : Prop :=
  y.2 = x.2 ∧ Twin b b' x.1 y.1

theorem Twin.view (h : Twin b b' s s') : s'.toView = s.toView := by rw [h.eq]; rfl

/-- A change that does not concern conditions. -/
theorem Twin.change (h : Twin b b' s s') {t : Sys α κ W} (h1 : t.conds = s.conds)
    (h2 : t.store = s.store) : Twin b b' t (t.recond s'.conds s'.store) :=
  ⟨rfl, by rw [h2]; exact h.fresh, by rw [h2]; exact h.sat, by rw [h2]; exact h.kept, h.kept',
    by rw [h1]; exact h.conds⟩

theorem Twin.evalCond (h : Twin b b' s s') {c c' : Cond α κ W} (hc : Interchangeable b b' c c')
    (id : Option κ) : Twins b b' (s.evalCond id c) (s'.evalCond id c') := by
  obtain ⟨h1, h2⟩ := hc.same s.toView id s.store s'.store h.kept h.kept' h.sat
  unfold Sys.evalCond
  rw [h.view]
  have k := eval_store s.toView id c s.store
  have k' := eval_store s.toView id c' s'.store
  refine ⟨h1, ?_, ?_, h2, h.kept.trans k.ownersKept, h.kept'.trans k'.ownersKept, h.conds⟩
  · conv => lhs; rw [h.eq]
    rfl
  · show (eval s.toView id c' s'.store).2.fresh = (eval s.toView id c s.store).2.fresh
    rw [k.fresh, k'.fresh, h.fresh]

/-- The arguments of corresponding runs. -/
structure TwinArgs (b b' : Store α κ) (a a' : RunArgs α κ W) : Prop where
  id : a'.id = a.id
  base : a'.base = a.base
  skip : a'.skip = a.skip
  esu : Interchangeable b b' a.esu a'.esu
  seq : Interchangeable b b' a.seq a'.seq
  others : Listwise (Interchangeable b b') a.others a'.others

/-- Functions that do not concern conditions, on corresponding schedulers. -/
def TwinE (b b' : Store α κ) : Except Err (Sys α κ W) → Except Err (Sys α κ W) → Prop
  | .ok s, .ok s' => Twin b b' s s'
  | .error e, .error e' => e' = e
  | _, _ => False

theorem Twin.mapped (h : Twin b b' s s') {f : Sys α κ W → Except Err (Sys α κ W)}
    (hf : ∀ d st s, f (s.recond d st) = (f s).map fun s => s.recond d st)
    (h1 : ∀ t, f s = .ok t → t.conds = s.conds ∧ t.store = s.store) :
    TwinE b b' (f s) (f s') := by
  have e := h.eq
  have e1 := hf s'.conds s'.store s
  rw [← e] at e1
  rw [e1]
  cases hs : f s with
  | error e => exact rfl
  | ok t => exact h.change (h1 t hs).1 (h1 t hs).2

theorem Sys.resetTotal_conds {ts id} (h : s.resetTotal ts id = .ok t) :
    t.conds = s.conds ∧ t.store = s.store := by
  unfold Sys.resetTotal at h
  split at h
  · cases h
  · cases h; exact ⟨rfl, rfl⟩

theorem Sys.incrClock_conds {ts id} (h : s.incrClock id ts = .ok t) :
    t.conds = s.conds ∧ t.store = s.store := by
  unfold Sys.incrClock at h
  split at h
  · cases h; exact ⟨rfl, rfl⟩
  · cases h

theorem Sys.fire_conds {n id} (h : s.fire id n = .ok t) :
    t.conds = s.conds ∧ t.store = s.store := by
  unfold Sys.fire at h
  split at h
  · cases h
  · split at h
    · split at h
      · cases h
      · cases h; exact ⟨rfl, rfl⟩
    · cases h

theorem Twin.incrClock (h : Twin b b' s s') (id ts) :
    TwinE b b' (s.incrClock id ts) (s'.incrClock id ts) :=
  h.mapped (f := fun s => s.incrClock id ts) (fun d st s => Sys.incrClock_recond d st s id ts) fun _ ht => Sys.incrClock_conds ht

theorem Twin.resetTotal (h : Twin b b' s s') (id ts) :
    TwinE b b' (s.resetTotal ts id) (s'.resetTotal ts id) :=
  h.mapped (f := fun s => s.resetTotal ts id) (fun d st s => Sys.resetTotal_recond d st s ts id) fun _ ht => Sys.resetTotal_conds ht

theorem Twin.fire (h : Twin b b' s s') (id n) :
    TwinE b b' (s.fire id n) (s'.fire id n) :=
  h.mapped (f := fun s => s.fire id n) (fun d st s => Sys.fire_recond d st s id n) fun _ ht => Sys.fire_conds ht

theorem Sys.record_conds (s : Sys α κ W) (id abs set) :
    (s.record id abs set).1.conds = s.conds ∧ (s.record id abs set).1.store = s.store := by
  unfold Sys.record
  split
  · exact ⟨rfl, rfl⟩
  · dsimp only
    split
    · split <;> exact ⟨rfl, rfl⟩
    · exact ⟨rfl, rfl⟩

theorem Twin.record (h : Twin b b' s s') (id abs set) :
    Twins b b' (s.record id abs set) (s'.record id abs set) := by
  have e1 := Sys.record_recond s'.conds s'.store s id abs set
  rw [← h.eq] at e1
  rw [e1]
  exact ⟨rfl, h.change (Sys.record_conds s id abs set).1 (Sys.record_conds s id abs set).2⟩

theorem Twin.continues (h : Twin b b' s s') (ha : TwinArgs b b' a a') :
    Twins b b' (s.continues a) (s'.continues a') := by
  have h1 := h.evalCond ha.esu a.id
  unfold Sys.continues
  rw [ha.id]
  rcases e : s.evalCond a.id a.esu with ⟨t, r⟩
  rcases e' : s'.evalCond a.id a'.esu with ⟨t', r'⟩
  rw [e, e'] at h1
  obtain ⟨h2, h3⟩ := h1
  dsimp only at h2 h3
  subst h2
  rcases r' with x | x
  · exact ⟨rfl, h3⟩
  · cases x
    · have h4 := h3.evalCond ha.seq a.id
      dsimp only
      rcases f : t.evalCond a.id a.seq with ⟨u, q⟩
      rcases f' : t'.evalCond a.id a'.seq with ⟨u', q'⟩
      rw [f, f'] at h4
      obtain ⟨h5, h6⟩ := h4
      dsimp only at h5 h6
      subst h5
      rcases q' with x | x <;> exact ⟨rfl, h6⟩
    · exact ⟨rfl, h3⟩

theorem Twin.considerNode (h : Twin b b' s s') (id : Option κ) (n : α) :
    Twins b b' (s.considerNode id n) (s'.considerNode id n) := by
  unfold Sys.considerNode
  rcases h.conds.get n with ⟨h1, h2⟩ | ⟨c, c', h1, h2, h3⟩
  · rw [h1, h2]; exact ⟨rfl, h⟩
  · rw [h1, h2]
    dsimp only
    have k := h.evalCond h3 id
    rcases e : s.evalCond id c with ⟨t, r⟩
    rcases e' : s'.evalCond id c' with ⟨t', r'⟩
    rw [e, e'] at k
    obtain ⟨k1, k2⟩ := k
    dsimp only at k1 k2
    subst k1
    rcases r' with x | x
    · exact ⟨rfl, k2⟩
    · cases x
      · exact ⟨rfl, k2⟩
      · have k3 := k2.fire id n
        dsimp only
        rcases f : t.fire id n with x | u <;> rcases f' : t'.fire id n with x' | u' <;>
          rw [f, f'] at k3
        · cases k3; exact ⟨rfl, k2⟩
        · exact k3.elim
        · exact k3.elim
        · exact ⟨rfl, k3⟩

theorem Twin.endPass (h : Twin b b' s s') (ha : TwinArgs b b' a a') (abs changed : Bool) :
    Twins b b' (s.endPass a abs changed) (s'.endPass a' abs changed) := by
  unfold Sys.endPass
  rw [ha.id]
  split
  · have k := h.record a.id false []
    rcases e : s.record a.id false [] with ⟨t, r⟩
    rcases e' : s'.record a.id false [] with ⟨t', r'⟩
    rw [e, e'] at k
    obtain ⟨k1, k2⟩ := k
    dsimp only at k1 k2
    subst k1
    rcases r' with _ | x <;> exact ⟨rfl, k2⟩
  · have k3 := h.incrClock a.id .pass
    rcases f : s.incrClock a.id .pass with x | u <;> rcases f' : s'.incrClock a.id .pass with x' | u' <;>
      rw [f, f'] at k3
    · cases k3; exact ⟨rfl, h⟩
    · exact k3.elim
    · exact k3.elim
    · exact ⟨rfl, k3⟩

theorem Twin.endChoice (h : Twin b b' s s') (ha : TwinArgs b b' a a') (abs : Bool) (c : Choice α) :
    Twins b b' (s.endChoice a abs c) (s'.endChoice a' abs c) := by
  unfold Sys.endChoice
  rw [ha.id]
  dsimp only
  split
  · have k := h.record a.id abs c.exec
    rcases e : s.record a.id abs c.exec with ⟨t, r⟩
    rcases e' : s'.record a.id abs c.exec with ⟨t', r'⟩
    rw [e, e'] at k
    obtain ⟨k1, k2⟩ := k
    dsimp only at k1 k2
    subst k1
    rcases r' with _ | x <;> exact ⟨rfl, k2⟩
  · exact ⟨rfl, h⟩

theorem Twin.choose (h : Twin b b' s s') (ha : TwinArgs b b' a a') (abs : Bool) (c : Choice α) :
    Twins b b' (s.choose a abs c) (s'.choose a' abs c) := by
  unfold Sys.choose
  split
  · split
    · exact ⟨rfl, h⟩
    · exact h.endChoice ha abs c
  · rename_i n ns _
    split
    · exact ⟨rfl, h⟩
    · rw [ha.id]
      have k := h.considerNode a.id n
      rcases e : s.considerNode a.id n with ⟨t, r⟩
      rcases e' : s'.considerNode a.id n with ⟨t', r'⟩
      rw [e, e'] at k
      obtain ⟨k1, k2⟩ := k
      dsimp only at k1 k2
      subst k1
      rcases r' with x | x
      · exact ⟨rfl, k2⟩
      · cases x <;> exact ⟨rfl, k2⟩

theorem Twin.finish (h : Twin b b' s s') (ha : TwinArgs b b' a a') :
    Twins b b' (s.finish a) (s'.finish a') := by
  have k : TwinE b b' (if a.skip then .ok s else s.incrClock a.id .environment_state_update)
      (if a.skip then .ok s' else s'.incrClock a.id .environment_state_update) := by
    split
    · exact h
    · exact h.incrClock _ _
  unfold Sys.finish
  rw [ha.id, ha.skip]
  rcases f : (if a.skip then .ok s else s.incrClock a.id .environment_state_update :
      Except Err (Sys α κ W)) with x | u <;>
    rcases f' : (if a.skip then .ok s' else s'.incrClock a.id .environment_state_update :
      Except Err (Sys α κ W)) with x' | u' <;>
      rw [f, f'] at k
  · cases k; exact ⟨rfl, h⟩
  · exact k.elim
  · exact k.elim
  · dsimp only
    have k1 := Twin.evalCond k ha.seq a.id
    rcases e : u.evalCond a.id a.seq with ⟨t, r⟩
    rcases e' : u'.evalCond a.id a'.seq with ⟨t', r'⟩
    rw [e, e'] at k1
    obtain ⟨k1, k2⟩ := k1
    dsimp only at k1 k2
    subst k1
    rcases r' with x | x <;> exact ⟨rfl, k2⟩

theorem Twin.step (h : Twin b b' s s') (ha : TwinArgs b b' a a') (abs : Bool) (pc : PC α) :
    Twins b b' (s.step a abs pc) (s'.step a' abs pc) := by
  cases pc with
  | outer =>
    have k := h.continues ha
    simp only [Sys.step]
    rw [ha.id]
    rcases e : s.continues a with ⟨t, r⟩
    rcases e' : s'.continues a' with ⟨t', r'⟩
    rw [e, e'] at k
    obtain ⟨k1, k2⟩ := k
    dsimp only at k1 k2
    subst k1
    rcases r' with x | x
    · exact ⟨rfl, k2⟩
    · cases x
      · exact k2.finish ha
      · have k3 := k2.resetTotal a.id .pass
        dsimp only
        rcases f : t.resetTotal .pass a.id with x | u <;>
          rcases f' : t'.resetTotal .pass a.id with x' | u' <;> rw [f, f'] at k3
        · cases k3; exact ⟨rfl, k2⟩
        · exact k3.elim
        · exact k3.elim
        · exact ⟨rfl, k3⟩
  | inner idx changed =>
    have hq : s'.queue = s.queue := congrArg View.queue h.view
    simp only [Sys.step]
    rw [hq]
    cases s.queue[idx]? with
    | none => exact h.endPass ha abs changed
    | some layer =>
      dsimp only
      have k := h.continues ha
      rcases e : s.continues a with ⟨t, r⟩
      rcases e' : s'.continues a' with ⟨t', r'⟩
      rw [e, e'] at k
      obtain ⟨k1, k2⟩ := k
      dsimp only at k1 k2
      subst k1
      rcases r' with x | x
      · exact ⟨rfl, k2⟩
      · cases x
        · exact k2.endPass ha abs changed
        · exact ⟨rfl, k2⟩
  | choosing c => exact h.choose ha abs c
  | yielded idx changed =>
    simp only [Sys.step]
    rw [ha.id]
    have k3 := h.incrClock a.id .consideration_set_execution
    rcases f : s.incrClock a.id .consideration_set_execution with x | u <;>
      rcases f' : s'.incrClock a.id .consideration_set_execution with x' | u' <;> rw [f, f'] at k3
    · cases k3; exact ⟨rfl, h⟩
    · exact k3.elim
    · exact k3.elim
    · exact ⟨rfl, k3⟩
  | yieldedEmpty =>
    simp only [Sys.step]
    rw [ha.id]
    have k3 := h.incrClock a.id .consideration_set_execution
    rcases f : s.incrClock a.id .consideration_set_execution with x | u <;>
      rcases f' : s'.incrClock a.id .consideration_set_execution with x' | u' <;> rw [f, f'] at k3
    · cases k3; exact ⟨rfl, h⟩
    · exact k3.elim
    · exact k3.elim
    · dsimp only
      have k4 := Twin.incrClock k3 a.id .pass
      rcases g : u.incrClock a.id .pass with x | y <;>
        rcases g' : u'.incrClock a.id .pass with x' | y' <;> rw [g, g'] at k4
      · cases k4; exact ⟨rfl, k3⟩
      · exact k4.elim
      · exact k4.elim
      · exact ⟨rfl, k4⟩
  | returned => exact ⟨rfl, h⟩
  | raised e => exact ⟨rfl, h⟩

theorem Twin.resumed (h : Twin b b' s s') (w : List (List α) → World α κ W) (ys : List (List α))
    (pc : PC α) : Twin b b' (resumed w ys s pc) (resumed w ys s' pc) := by
  unfold Spec.resumed
  split
  · have := h.change (t := { s with world := w ys }) rfl rfl
    have e : ({ s' with world := w ys } : Sys α κ W) =
        ({ s with world := w ys } : Sys α κ W).recond s'.conds s'.store := by
      conv => lhs; rw [h.eq]
      rfl
    rw [e]; exact this
  · exact h

end GS
