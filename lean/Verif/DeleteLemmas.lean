import Verif.Spec.Delete
import Verif.Isolate
import Verif.Life
/-!
# Lemmas about deleting what is stored under an execution id
-/

set_option linter.unusedSectionVars false

namespace GS
open Spec
variable {α κ W : Type _} [DecidableEq α] [DecidableEq κ]
variable {a : RunArgs α κ W} {s0 s t : Sys α κ W} {i : Option κ}
variable {abs : Bool} {h : History α κ W} {pc : PC α}

/-- The scheduler without what is stored under execution ids. -/
def Sys.bare (s : Sys α κ W) : Sys α κ W :=
  { s with countsTotal := [], countsUseable := [], execList := [], timestamps := [], clocks := []
           store := { s.store with sat := fun _ _ => 0 } }

def bareStore (st : Store α κ) : Store α κ := { st with sat := fun _ _ => 0 }

mutual
theorem setOwner_bare (v : Option α) : ∀ (c : Cond α κ W) (st : Store α κ),
    bareStore (setOwner v c st) = setOwner v c (bareStore st)
  | .leaf o _, _ => by unfold setOwner; rfl
  | .whileNot o _, _ => by unfold setOwner; rfl
  | .all o args, _ => by unfold setOwner; rw [setOwners_bare v args]; rfl
  | .any o args, _ => by unfold setOwner; rw [setOwners_bare v args]; rfl
  | .not o c, _ => by unfold setOwner; rw [setOwner_bare v c]; rfl
  | .nwhen o c _, _ => by unfold setOwner; rw [setOwner_bare v c]; rfl
theorem setOwners_bare (v : Option α) : ∀ (cs : List (Cond α κ W)) (st : Store α κ),
    bareStore (setOwners v cs st) = setOwners v cs (bareStore st)
  | [], _ => rfl
  | c :: cs, st => by
    unfold setOwners
    have e : (bareStore st).owner = st.owner := rfl
    rw [e]
    split
    · rw [setOwners_bare v cs, setOwner_bare v c]
    · exact setOwners_bare v cs _
end

mutual
theorem setOwner_sat (v : Option α) : ∀ (c : Cond α κ W) (st : Store α κ),
    (setOwner v c st).sat = st.sat
  | .leaf o _, _ => by unfold setOwner; rfl
  | .whileNot o _, _ => by unfold setOwner; rfl
  | .all o args, _ => by unfold setOwner; rw [setOwners_sat v args]; rfl
  | .any o args, _ => by unfold setOwner; rw [setOwners_sat v args]; rfl
  | .not o c, _ => by unfold setOwner; rw [setOwner_sat v c]; rfl
  | .nwhen o c _, _ => by unfold setOwner; rw [setOwner_sat v c]; rfl
theorem setOwners_sat (v : Option α) : ∀ (cs : List (Cond α κ W)) (st : Store α κ),
    (setOwners v cs st).sat = st.sat
  | [], _ => rfl
  | c :: cs, st => by
    unfold setOwners
    split
    · rw [setOwners_sat v cs, setOwner_sat v c]
    · exact setOwners_sat v cs _
end

namespace Sys

theorem bare_add (s : Sys α κ W) (k : Nat) (n : α) (c : Cond α κ W) :
    ((s.alloc k).addBasic n c).bare = (s.bare.alloc k).addBasic n c := by
  have := setOwner_bare (some n) c (s.alloc k).store
  have e : bareStore (s.alloc k).store = (s.bare.alloc k).store := by
    have : (fun _ _ => 0 : OId → Option κ → Nat) = fun o _ => if s.store.fresh ≤ o then 0 else 0 := by
      funext o i; split <;> rfl
    unfold bareStore alloc bare
    simp only [Store.mk.injEq]
    exact ⟨trivial, this, trivial⟩
  rw [e] at this
  unfold addBasic bare
  simp only [Sys.mk.injEq]
  exact ⟨rfl, rfl, this, rfl⟩

theorem validateConditions_bare : ∀ (ns : List α) (s : Sys α κ W),
    validateConditions ns s.bare = ((validateConditions ns s).1.bare, (validateConditions ns s).2)
  | [], _ => rfl
  | n :: ns, s => by
    have e1 : s.bare.conds = s.conds := rfl
    have e2 : s.bare.graph = s.graph := rfl
    have e3 : s.bare.store.fresh = s.store.fresh := rfl
    unfold validateConditions
    rw [e1, e2, e3]
    split
    · exact validateConditions_bare ns s
    · split
      · rfl
      · rw [← bare_add]
        exact validateConditions_bare ns _

theorem validateRunState_bare (s : Sys α κ W) :
    s.bare.validateRunState = (s.validateRunState.1.bare, s.validateRunState.2) := by
  have e1 : s.bare.graph = s.graph := rfl
  have e2 : s.bare.nodes = s.nodes := rfl
  unfold validateRunState
  rw [e1, e2]
  split
  · rfl
  · exact validateConditions_bare _ s

theorem validateConditions_uncounted : ∀ (ns : List α) {s : Sys α κ W}, Uncounted i s →
    Uncounted i (validateConditions ns s).1
  | [], _, h => h
  | n :: ns, s, h => by
    unfold validateConditions
    split
    · exact validateConditions_uncounted ns h
    · split
      · exact h
      · apply validateConditions_uncounted ns
        intro o
        show (setOwner _ _ _).sat o i = 0
        rw [setOwner_sat]
        simp only [alloc]
        split
        · rfl
        · exact h o

theorem validateRunState_uncounted (h : Uncounted i s) : Uncounted i s.validateRunState.1 := by
  unfold validateRunState
  split
  · exact h
  · exact validateConditions_uncounted _ h

theorem validateRunState_view (s : Sys α κ W) : s.validateRunState.1.toView = s.toView := by
  unfold validateRunState
  split
  · rfl
  · exact validateConditions_view _ _

end Sys

theorem Frame.bare {j : Option κ} (h : Frame j s t) : t.bare = s.bare := by
  unfold Sys.bare
  simp only [Sys.mk.injEq, View.mk.injEq]
  refine ⟨⟨h.nodes, h.mode, h.graph, h.queue, trivial, trivial, trivial, trivial, trivial, h.world⟩, h.conds, ?_,
    h.defaultUnit⟩
  rw [h.store.owner, h.store.fresh]

/-- Whatever is done with a scheduler, only what is stored under ids changes, and conditions
become explicit. -/
theorem Spec.Used.bare (hu : Used s t) :
    t.validateRunState.1.bare = s.validateRunState.1.bare ∧
    t.validateRunState.2 = s.validateRunState.2 := by
  have fr : ∀ {s t : Sys α κ W} {j}, Frame j s t →
      t.validateRunState.1.bare = s.validateRunState.1.bare ∧
      t.validateRunState.2 = s.validateRunState.2 := by
    intro s t j hf
    have e1 := Sys.validateRunState_bare s
    have e2 := Sys.validateRunState_bare t
    rw [hf.bare] at e2
    rw [e1] at e2
    have := Prod.mk.inj e2
    exact ⟨this.1.symm, this.2.symm⟩
  induction hu with
  | refl => exact ⟨rfl, rfl⟩
  | start b r _ hs ih =>
    have := fr (Sys.start_other hs)
    rw [Sys.validateRunState_idem] at this
    exact ⟨this.1.trans ih.1, this.2.trans ih.2⟩
  | step b abs pc pc' ev _ hs ih =>
    have := fr (Sys.step_stepR hs).frame
    exact ⟨this.1.trans ih.1, this.2.trans ih.2⟩
  | @clock s1 j _ ih =>
    have := fr (Sys.getClock_other (j := j) s1)
    exact ⟨this.1.trans ih.1, this.2.trans ih.2⟩
  | @endSequence s1 s2 j _ hs ih =>
    have h1 : Frame j s1 s2 := by
      unfold Sys.endEnvironmentSequence Sys.incrClock at hs
      split at hs
      · cases hs; exact Frame.setClock _ _ _
      · cases hs
    have := fr h1
    exact ⟨this.1.trans ih.1, this.2.trans ih.2⟩
  | @delete s1 j _ ih =>
    have := fr (Sys.deleteCounts_other s1 j)
    exact ⟨this.1.trans ih.1, this.2.trans ih.2⟩

/-- Two such schedulers, with nothing under the id `i`, are ready for the same runs. -/
theorem ready_of_bare (h1 : t.validateRunState.1.bare = s.validateRunState.1.bare)
    (h2 : t.validateRunState.2 = s.validateRunState.2) (hs : Unknown i s) (ht : Unknown i t)
    (us : Uncounted i s) (ut : Uncounted i t) : Sys.Ready i s t := by
  refine ⟨⟨⟨?_, ?_, ?_, ?_, ?_, ?_, ?_, ?_, ?_, ?_⟩, ⟨?_, ?_, fun o => ?_⟩, ?_, ?_⟩, h2⟩
  · exact congrArg (fun s => s.nodes) h1
  · exact congrArg (fun s => s.mode) h1
  · exact congrArg (fun s => s.graph) h1
  · exact congrArg (fun s => s.queue) h1
  · exact congrArg (fun s => s.world) h1
  · rw [Sys.validateRunState_view, Sys.validateRunState_view, hs.total, ht.total]
  · rw [Sys.validateRunState_view, Sys.validateRunState_view, hs.useable, ht.useable]
  · rw [Sys.validateRunState_view, Sys.validateRunState_view, hs.list, ht.list]
  · rw [Sys.validateRunState_view, Sys.validateRunState_view, hs.stamps, ht.stamps]
  · rw [Sys.validateRunState_view, Sys.validateRunState_view, hs.clocks, ht.clocks]
  · exact congrArg (fun s => s.store.owner) h1
  · exact congrArg (fun s => s.store.fresh) h1
  · rw [Sys.validateRunState_uncounted us o, Sys.validateRunState_uncounted ut o]
  · exact congrArg (fun s => s.conds) h1
  · exact congrArg (fun s => s.defaultUnit) h1

/-- Runs on schedulers that are ready for the same run. -/
theorem Reach.ready (hr : Reach (fun _ _ => False) a s abs h t pc) (hst : Sys.Ready a.id s0 s)
    (hk : a.base = none ∨ Known a.id s0)
    (he : LocalCond a.id a.esu) (hq : LocalCond a.id a.seq)
    (hc : ∀ n c, Dict.get? s0.conds n = some c → LocalCond a.id c) :
    ∃ h2 s2, Reach (fun _ _ => False) a s0 abs h2 s2 pc ∧ h2.map (·.ev) = h.map (·.ev) ∧
      Agree a.id s2 t ∧ ∀ n c, Dict.get? s2.conds n = some c → LocalCond a.id c := by
  induction hr with
  | @start s1 abs hs =>
    have h1 := Sys.start_same hst hk
    rcases h2 : s0.start a with ⟨s2, r⟩
    rw [hs, h2] at h1
    obtain ⟨g1, g2⟩ := h1
    simp only at g1 g2
    subst g2
    exact ⟨[], s2, Reach.start h2, rfl, g1, Sys.start_local h2 hc⟩
  | @step abs h s s' pc pc' ev hr hs ih =>
    obtain ⟨h2, s2, h3, h4, h5, h6⟩ := ih
    rcases hs2 : s2.step a abs pc with ⟨s2', pc2, ev2⟩
    have h7 := Sys.step_same h5 abs pc he hq h6
    rw [hs, hs2] at h7
    obtain ⟨g1, g2⟩ := h7
    simp only [Prod.mk.injEq] at g1 g2
    obtain ⟨g2, g3⟩ := g2
    subst g2 g3
    refine ⟨_, s2', Reach.step h3 hs2, ?_, g1, ?_⟩
    · rw [List.map_append, List.map_append, h4]
      cases ev <;> simp
    · intro n c hn
      exact h6 n c (by rw [← (Sys.step_stepR hs2).frame.conds]; exact hn)
  | env hr hp hee ih => exact hee.elim

end GS
