import Verif.RenameObjStart
/-!
# Lemmas: what a step of a run touches

A step only evaluates conditions of nodes and termination conditions; everything else it
changes does not concern conditions.
-/

set_option linter.unusedSectionVars false

namespace GS
open Spec
variable {α κ W : Type _} [DecidableEq α] [DecidableEq κ]
variable {a : RunArgs α κ W} {abs : Bool} {s s' t t' : Sys α κ W}

/-- Closed under evaluations of the conditions of nodes and of the termination conditions,
and under changes that do not concern conditions. -/
structure Stable (a : RunArgs α κ W) (I : Sys α κ W → Prop) : Prop where
  node : ∀ s n c, I s → Dict.get? s.conds n = some c → I (s.evalCond a.id c).1
  esu : ∀ s, I s → I (s.evalCond a.id a.esu).1
  seq : ∀ s, I s → I (s.evalCond a.id a.seq).1
  change : ∀ s t, I s → t.conds = s.conds → t.store = s.store → I t

variable {I : Sys α κ W → Prop}

theorem Stable.continues (h : Stable a I) (hs : I s) : I (s.continues a).1 := by
  unfold Sys.continues
  have h1 := h.esu s hs
  rcases e : s.evalCond a.id a.esu with ⟨t, r⟩
  rw [e] at h1
  rcases r with x | x
  · exact h1
  · cases x
    · have h2 := h.seq t h1
      dsimp only
      rcases f : t.evalCond a.id a.seq with ⟨u, q⟩
      rw [f] at h2
      rcases q with x | x <;> exact h2
    · exact h1

theorem Stable.considerNode (h : Stable a I) (hs : I s) (n : α) : I (s.considerNode a.id n).1 := by
  unfold Sys.considerNode
  cases hc : Dict.get? s.conds n with
  | none => exact hs
  | some c =>
    dsimp only
    have h1 := h.node s n c hs hc
    rcases e : s.evalCond a.id c with ⟨t, r⟩
    rw [e] at h1
    rcases r with x | x
    · exact h1
    · cases x
      · exact h1
      · dsimp only
        rcases f : t.fire a.id n with x | u
        · exact h1
        · exact h.change _ _ h1 (Sys.fire_conds f).1 (Sys.fire_conds f).2

theorem Stable.incr (h : Stable a I) (hs : I s) {ts} (e : s.incrClock a.id ts = .ok t) : I t :=
  h.change _ _ hs (Sys.incrClock_conds e).1 (Sys.incrClock_conds e).2

theorem Stable.record (h : Stable a I) (hs : I s) (ab set) : I (s.record a.id ab set).1 :=
  h.change _ _ hs (Sys.record_conds s _ _ _).1 (Sys.record_conds s _ _ _).2

theorem Stable.endPass (h : Stable a I) (hs : I s) (abs changed : Bool) :
    I (s.endPass a abs changed).1 := by
  unfold Sys.endPass
  split
  · have k := h.record hs false []
    rcases e : s.record a.id false [] with ⟨t, r⟩
    rw [e] at k
    rcases r with _ | x <;> exact k
  · rcases f : s.incrClock a.id .pass with x | u
    · exact hs
    · exact h.incr hs f

theorem Stable.endChoice (h : Stable a I) (hs : I s) (abs : Bool) (c : Choice α) :
    I (s.endChoice a abs c).1 := by
  unfold Sys.endChoice
  dsimp only
  split
  · have k := h.record hs abs c.exec
    rcases e : s.record a.id abs c.exec with ⟨t, r⟩
    rw [e] at k
    rcases r with _ | x <;> exact k
  · exact hs

theorem Stable.choose (h : Stable a I) (hs : I s) (abs : Bool) (c : Choice α) :
    I (s.choose a abs c).1 := by
  unfold Sys.choose
  split
  · split
    · exact hs
    · exact h.endChoice hs abs c
  · rename_i n ns _
    split
    · exact hs
    · have k := h.considerNode hs n
      rcases e : s.considerNode a.id n with ⟨t, r⟩
      rw [e] at k
      rcases r with x | x
      · exact k
      · cases x <;> exact k

theorem Stable.finish (h : Stable a I) (hs : I s) : I (s.finish a).1 := by
  unfold Sys.finish
  rcases f : (if a.skip then .ok s else s.incrClock a.id .environment_state_update :
      Except Err (Sys α κ W)) with x | u
  · exact hs
  · have hu : I u := by
      split at f
      · cases f; exact hs
      · exact h.incr hs f
    dsimp only
    have k := h.seq u hu
    rcases e : u.evalCond a.id a.seq with ⟨t, r⟩
    rw [e] at k
    rcases r with x | x <;> exact k

theorem Stable.step (h : Stable a I) (hs : I s) (abs : Bool) (pc : PC α) :
    I (s.step a abs pc).1 := by
  cases pc with
  | outer =>
    have k := h.continues hs
    simp only [Sys.step]
    rcases e : s.continues a with ⟨t, r⟩
    rw [e] at k
    rcases r with x | x
    · exact k
    · cases x
      · exact h.finish k
      · dsimp only
        rcases f : t.resetTotal .pass a.id with x | u
        · exact k
        · exact h.change _ _ k (Sys.resetTotal_conds f).1 (Sys.resetTotal_conds f).2
  | inner idx changed =>
    simp only [Sys.step]
    cases s.queue[idx]? with
    | none => exact h.endPass hs abs changed
    | some layer =>
      dsimp only
      have k := h.continues hs
      rcases e : s.continues a with ⟨t, r⟩
      rw [e] at k
      rcases r with x | x
      · exact k
      · cases x
        · exact h.endPass k abs changed
        · exact k
  | choosing c => exact h.choose hs abs c
  | yielded idx changed =>
    simp only [Sys.step]
    rcases f : s.incrClock a.id .consideration_set_execution with x | u
    · exact hs
    · exact h.incr hs f
  | yieldedEmpty =>
    simp only [Sys.step]
    rcases f : s.incrClock a.id .consideration_set_execution with x | u
    · exact hs
    · dsimp only
      have hu := h.incr hs f
      rcases g : u.incrClock a.id .pass with x | y
      · exact hu
      · exact h.incr hu g
  | returned => exact hs
  | raised e => exact hs

/-- What concerns conditions: the dict of conditions is the same, no object is made, and
the objects outside `Q` keep their attributes. -/
structure Touches (Q : Nat → Prop) (s t : Sys α κ W) : Prop where
  conds : t.conds = s.conds
  fresh : t.store.fresh = s.store.fresh
  out : SameOn (fun o => ¬ Q o) s.store t.store

theorem Sys.step_touches {Q : Nat → Prop} (hc : ∀ n c, Dict.get? s.conds n = some c → ∀ o, Occurs o c → Q o)
    (he : ∀ o, Occurs o a.esu → Q o) (hq : ∀ o, Occurs o a.seq → Q o) (abs : Bool) (pc : PC α) :
    Touches Q s (s.step a abs pc).1 := by
  have ev : ∀ (t : Sys α κ W) (c : Cond α κ W), Touches Q s t → (∀ o, Occurs o c → Q o) →
      Touches Q s (t.evalCond a.id c).1 := by
    intro t c ht hk
    refine ⟨ht.conds, ?_, ?_⟩
    · show (eval t.toView a.id c t.store).2.fresh = _
      rw [(eval_store t.toView a.id c t.store).fresh, ht.fresh]
    · exact ht.out.trans (eval_outside t.toView a.id _ c t.store fun o ho k => k (hk o ho))
  have hst : Stable a (Touches Q s) := by
    refine ⟨fun t n c ht hk => ev t c ht (hc n c (by rw [← ht.conds]; exact hk)),
      fun t ht => ev t _ ht he, fun t ht => ev t _ ht hq, fun t u ht h1 h2 => ?_⟩
    exact ⟨h1.trans ht.conds, by rw [h2]; exact ht.fresh, by rw [h2]; exact ht.out⟩
  exact hst.step ⟨rfl, rfl, .refl _ _⟩ abs pc

end GS
