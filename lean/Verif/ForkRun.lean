import Verif.Fork
import Verif.AgainRun
import Verif.LifeDefault
/-!
# Lemmas: whole runs of a fork and of its base
-/

set_option linter.unusedSectionVars false

namespace GS
open Spec TimeScale
variable {α κ W : Type _} [DecidableEq α] [DecidableEq κ]
variable {a a' : RunArgs α κ W} {s s' t t' s0 : Sys α κ W} {P : Nat → Prop} {i j : Option κ}
variable {w : List (List α) → World α κ W}

/-- Default conditions only ask for calls since the owner was last called. -/
theorem IsDefault.fork {st : Store α κ} {n : α} {deps : List α} {c : Cond α κ W}
    (h : IsDefault st n deps c) : ForkCond P i j c := by
  obtain ⟨o, rfl, _⟩ := h.ex
  match deps with
  | [] => exact trivial
  | [d] => exact trivial
  | d :: d' :: ds =>
    simp only [Sys.defaultCond]
    rw [defaultLeaves_eq]
    have : ∀ (ds : List α) (k : Nat), ForkConds P i j (defaultLeaves k ds : List (Cond α κ W)) := by
      intro ds
      induction ds with
      | nil => intro _; trivial
      | cons d ds ih => intro k; exact ⟨trivial, ih _⟩
    exact this _ _

theorem Started.fork (S : Started a s0 s) (h : ∀ n c, Dict.get? s0.conds n = some c → ForkCond P i j c)
    {n : α} {c : Cond α κ W} (hc : Dict.get? s.conds n = some c) : ForkCond P i j c := by
  obtain ⟨_, x2, x3, x4⟩ := S.conds_spec
  rcases e : Dict.get? s0.conds n with _ | c0
  · by_cases hn : n ∈ s0.nodes
    · obtain ⟨deps, c', _, e2, e3⟩ := x3 n hn e
      rw [hc] at e2; cases e2
      exact e3.fork
    · rw [x4 n hn, e] at hc; cases hc
  · rw [x2 n c0 e] at hc
    cases hc
    exact h n c e

/-- The fork begins its run if the base does, and they correspond. -/
theorem Spec.ForkReady.start (h : ForkReady P w a j s0) (hs : s0.start a = (s, .ok false)) :
    ∃ t, s0.start (forkArgs j a) = (t, .ok false) ∧ Branch P a.id j s t := by
  have S := Sys.start_ok hs
  obtain ⟨v, hv, hv1, hv2⟩ := S.conds
  have hab : v.absoluteConds (forkArgs j a) = [] := by
    rcases Sys.start_abs hs with ⟨_, g, _⟩ | ⟨g, _⟩
    · show v.absoluteConds a = []
      unfold Sys.absoluteConds at g ⊢
      rw [← hv1]; exact g
    · cases g
  obtain ⟨t, ht⟩ := Sys.start_runs (a := forkArgs j a) h.synced hv (.inr (.inr ⟨a.id, rfl, h.known⟩)) (.inl hab)
  rw [hab] at ht
  simp only [ne_eq, not_true_eq_false, decide_false] at ht
  refine ⟨t, ht, ?_⟩
  have T := Sys.start_ok ht
  obtain ⟨v', hv', hv1', hv2'⟩ := T.conds
  rw [hv] at hv'
  cases hv'
  obtain ⟨x1, _⟩ := S.conds_spec
  obtain ⟨f0, hf0⟩ := Option.isSome_iff_exists.1 h.known.total
  obtain ⟨l0, hl0⟩ := Option.isSome_iff_exists.1 h.known.list
  obtain ⟨f, f1, f2, f3, _⟩ := S.total
  obtain ⟨g, g1, g2, _, g3, _⟩ := T.total
  obtain ⟨l, l1, l2, _⟩ := S.list
  obtain ⟨m, m1, _, m2, _⟩ := T.list
  obtain ⟨log, c1, c2⟩ := h.clock
  have hfg : g = f := by
    funext ts n
    by_cases hts : ts.val ≤ 2
    · rw [f2 ts n hts, g2 ts n hts]
    · rw [f3 f0 hf0 ts n (by omega), g3 a.id f0 h.unseen.total rfl hf0 ts n (by omega)]
  have hclk : Shows (s0.clock j) [] := by
    unfold View.clock
    rw [h.unseen.clocks]
    exact Shows.new
  refine ⟨⟨?_, ?_, ?_, ?_, ?_, ?_, ?_, ?_⟩, ⟨log, [], S.shows c1, T.shows hclk, ?_⟩, ?_,
    ⟨?_, ?_, fun o ho => ?_⟩, ?_, fun n c hc => ?_⟩
  · rw [T.nodes, S.nodes]
  · rw [T.mode, S.mode]
  · rw [T.graph, S.graph]
  · rw [T.queue, S.queue]
  · rw [T.world, S.world]
  · rw [show Dict.get? t.countsTotal j = some g from g1, f1, hfg]
  · rw [show Dict.get? t.countsUseable j = some (fun _ _ => 0) from T.useable, S.useable]
  · rw [show Dict.get? t.execList j = some m from m1, l1, l2 l0 hl0, m2 a.id l0 h.unseen.list rfl hl0]
  · rw [c2]; rfl
  · rw [S.world]; exact h.world
  · rw [hv2', hv2]
  · rw [hv2', hv2]
  · obtain ⟨k1, k2⟩ := h.sat o ho
    rw [hv2', ← hv2, x1.sat o k1, x1.sat o k1]; exact k2
  · rw [hv1', hv1]
  · exact S.fork h.conds hc

theorem Branch.resumed (h : Branch P i j s s') {w : List (List α) → World α κ W}
    (ys : List (List α)) (hw : WorldFor i j (w ys) (w ys)) (pc : PC α) :
    Branch P i j (Spec.resumed w ys s pc) (Spec.resumed w ys s' pc) := by
  unfold Spec.resumed
  split
  · exact ⟨⟨h.view.nodes, h.view.mode, h.view.graph, h.view.queue, rfl, h.view.total, h.view.useable,
      h.view.list⟩, h.clock, hw, h.store, h.conds, h.fits⟩
  · exact h

/-- The base and the fork go along together. -/
theorem Spec.ForkReady.along (h : ForkReady P w a j s0) {s1 : Sys α κ W}
    (hs : s0.start a = (s1, .ok false)) (k : Nat) :
    (Props.scriptAfter w (forkArgs j a) s0 k).1.map Entry.ev =
      (Props.scriptAfter w a s0 k).1.map Entry.ev ∧
    (Props.scriptAfter w (forkArgs j a) s0 k).2.2 = (Props.scriptAfter w a s0 k).2.2 ∧
    Branch P a.id j (Props.scriptAfter w a s0 k).2.1 (Props.scriptAfter w (forkArgs j a) s0 k).2.1 := by
  obtain ⟨t1, ht, hb⟩ := h.start hs
  have ha : BranchArgs P a.id j a (forkArgs j a) := ⟨rfl, rfl, rfl, rfl, rfl, h.esu, h.seq⟩
  have e1 : (s0.start a).2.toOption.getD false = false := by rw [hs]; rfl
  have e2 : (s0.start (forkArgs j a)).2.toOption.getD false = false := by rw [ht]; rfl
  induction k with
  | zero =>
    unfold Props.scriptAfter
    rw [hs, ht]
    exact ⟨rfl, rfl, hb⟩
  | succ k ih =>
    unfold Props.scriptAfter
    rcases g1 : Props.scriptAfter w a s0 k with ⟨h1, s, pc⟩
    rcases g2 : Props.scriptAfter w (forkArgs j a) s0 k with ⟨h2, s', pc'⟩
    rw [g1, g2] at ih
    obtain ⟨i1, i2, i3⟩ := ih
    dsimp only at i1 i2 i3 ⊢
    subst i2
    rw [e1, e2, yields_of_events i1]
    have k4 := (i3.resumed (w := w) (yields h1) (h.script _) pc').step ha pc'
    rcases x1 : (Spec.resumed w (yields h1) s pc').step a false pc' with ⟨s2, pc2, ev⟩
    rcases x2 : (Spec.resumed w (yields h1) s' pc').step (forkArgs j a) false pc' with ⟨s2', pc2', ev'⟩
    rw [x1, x2] at k4
    obtain ⟨k5, k6⟩ := k4
    cases k5
    refine ⟨?_, rfl, k6⟩
    dsimp only
    rw [List.map_append, List.map_append, i1]
    cases ev <;> rfl

/-! ## After a complete run of the base -/

theorem Spec.Forkable.after (h : Forkable a.id j s0) (hk : a.skip = false) {hist : History α κ W}
    (hr : Scripted w a s0 false hist s .returned) : Forkable a.id j s ∧ Known a.id s := by
  obtain ⟨s1, h1, h2, _⟩ := hr.reach.conds_start (by rintro _ _ ⟨w, rfl⟩; rfl)
    (by rintro _ _ ⟨w, rfl⟩; rfl) (by rintro _ _ ⟨w, rfl⟩; exact Nat.le_refl _)
  have S := Sys.start_ok h1
  obtain ⟨log, l1, l2⟩ := h.clock
  have hclk := (Props.C19_completed_run hr.reach (by rintro _ _ ⟨w, rfl⟩; rfl) l1).1
  have hv : s0.validateRunState.1.toView = s0.toView := by
    unfold Sys.validateRunState
    split
    · rfl
    · exact Sys.validateConditions_view _ _
  have hun : Unseen j s ∧ Synced s := by
    refine hr.reach.ind (P := fun _ s _ => Unseen j s ∧ Synced s) ?_ ?_ ?_
    · intro s hs
      have F := Sys.start_other hs
      refine ⟨⟨?_, ?_, ?_, ?_⟩, (Sys.start_synced h.synced hs).1⟩
      · rw [F.total j h.ne.symm, hv]; exact h.unseen.total
      · rw [F.useable j h.ne.symm, hv]; exact h.unseen.useable
      · rw [F.list j h.ne.symm, hv]; exact h.unseen.list
      · rw [F.clocks j h.ne.symm, hv]; exact h.unseen.clocks
    · intro _ _ _ _ _ _ _ ih hst
      have F := hst.frame
      refine ⟨⟨?_, ?_, ?_, ?_⟩, hst.synced ih.2⟩
      · rw [F.total j h.ne.symm]; exact ih.1.total
      · rw [F.useable j h.ne.symm]; exact ih.1.useable
      · rw [F.list j h.ne.symm]; exact ih.1.list
      · rw [F.clocks j h.ne.symm]; exact ih.1.clocks
    · rintro _ _ _ _ _ ih _ ⟨w, rfl⟩
      exact ⟨⟨ih.1.total, ih.1.useable, ih.1.list, ih.1.clocks⟩, ih.2⟩
  obtain ⟨f, _, f1, _⟩ := Props.C11_run_count hr.reach (by rintro _ _ ⟨w, rfl⟩; rfl)
  refine ⟨⟨h.ne, hun.1, hun.2, ⟨_, hclk, ?_⟩, fun n c hc => ?_⟩, hun.2.known (by rw [f1]; rfl)⟩
  · rw [hk]
    unfold sinceUpdate
    simp [TimeScale.val]
  · rw [h2] at hc
    exact S.fork h.conds hc

theorem Spec.Forkable.ready (h : Forkable i j s) (hk : Known i s) (hi : a.id = i)
    (he : ForkCond (fun _ => False) i j a.esu) (hq : ForkCond (fun _ => False) i j a.seq)
    {wd : World α κ W} (hwd : WorldFor i j wd wd) (hw : ∀ ys, WorldFor i j (w ys) (w ys)) :
    ForkReady (fun _ => False) w a j { s with world := wd } := by
  subst hi
  exact ⟨⟨hk.total, hk.useable, hk.list⟩,
    ⟨h.unseen.total, h.unseen.useable, h.unseen.list, h.unseen.clocks⟩, h.synced, h.clock, h.conds,
    he, hq, fun _ ho => ho.elim, hwd, hw⟩

end GS
