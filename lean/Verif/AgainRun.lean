import Verif.Again
import Verif.EquivStart
import Verif.Absolute
import Verif.LifeDefault
import Verif.OrderStart
import Verif.Props.Order
import Verif.Props.RunClock
/-!
# Lemmas: whole runs that see the same since the current update began
-/

set_option linter.unusedSectionVars false

namespace GS
open Spec TimeScale
variable {α κ W : Type _} [DecidableEq α] [DecidableEq κ]
variable {a a' : RunArgs α κ W} {s s' t t' s0 t0 : Sys α κ W} {P : Nat → Prop} {i j : Option κ}
variable {own own' : Nat → Option α}

/-! ## Conditions made of existing objects -/

mutual
theorem sameRecent_ext {own own' ow ow' : Nat → Option α} : ∀ c c' : Cond α κ W,
    SameRecent P own own' c c' → (∀ o, Occurs o c → ow o = own o) →
    (∀ o, Occurs o c' → ow' o = own' o) → SameRecent P ow ow' c c'
  | .leaf o k, .leaf o' k', hk, h, h' => by
    obtain ⟨rfl, h1, h2⟩ := hk
    refine ⟨rfl, h1, fun d n e => ?_⟩
    rw [h o rfl, h' o' rfl]; exact h2 d n e
  | .all o cs, .all o' cs', hk, h, h' =>
    sameRecents_ext cs cs' hk (fun x hx => h x (.inr hx)) fun x hx => h' x (.inr hx)
  | .any o cs, .any o' cs', hk, h, h' =>
    sameRecents_ext cs cs' hk (fun x hx => h x (.inr hx)) fun x hx => h' x (.inr hx)
  | .not o c, .not o' c', hk, h, h' =>
    sameRecent_ext c c' hk (fun x hx => h x (.inr hx)) fun x hx => h' x (.inr hx)
  | .nwhen o c n, .nwhen o' c' n', hk, h, h' =>
    ⟨hk.1, hk.2.1, hk.2.2.1,
      sameRecent_ext c c' hk.2.2.2 (fun x hx => h x (.inr hx)) fun x hx => h' x (.inr hx)⟩
  | .whileNot .., _, hk, _, _ => by simp [SameRecent] at hk
  | .leaf .., .nwhen .., hk, _, _ => by simp [SameRecent] at hk
  | .leaf .., .whileNot .., hk, _, _ => by simp [SameRecent] at hk
  | .leaf .., .all .., hk, _, _ => by simp [SameRecent] at hk
  | .leaf .., .any .., hk, _, _ => by simp [SameRecent] at hk
  | .leaf .., .not .., hk, _, _ => by simp [SameRecent] at hk
  | .all .., .nwhen .., hk, _, _ => by simp [SameRecent] at hk
  | .all .., .whileNot .., hk, _, _ => by simp [SameRecent] at hk
  | .all .., .leaf .., hk, _, _ => by simp [SameRecent] at hk
  | .all .., .any .., hk, _, _ => by simp [SameRecent] at hk
  | .all .., .not .., hk, _, _ => by simp [SameRecent] at hk
  | .any .., .nwhen .., hk, _, _ => by simp [SameRecent] at hk
  | .any .., .whileNot .., hk, _, _ => by simp [SameRecent] at hk
  | .any .., .leaf .., hk, _, _ => by simp [SameRecent] at hk
  | .any .., .all .., hk, _, _ => by simp [SameRecent] at hk
  | .any .., .not .., hk, _, _ => by simp [SameRecent] at hk
  | .not .., .nwhen .., hk, _, _ => by simp [SameRecent] at hk
  | .not .., .whileNot .., hk, _, _ => by simp [SameRecent] at hk
  | .not .., .leaf .., hk, _, _ => by simp [SameRecent] at hk
  | .not .., .all .., hk, _, _ => by simp [SameRecent] at hk
  | .not .., .any .., hk, _, _ => by simp [SameRecent] at hk
  | .nwhen .., .not .., hk, _, _ => by simp [SameRecent] at hk
  | .nwhen .., .whileNot .., hk, _, _ => by simp [SameRecent] at hk
  | .nwhen .., .leaf .., hk, _, _ => by simp [SameRecent] at hk
  | .nwhen .., .all .., hk, _, _ => by simp [SameRecent] at hk
  | .nwhen .., .any .., hk, _, _ => by simp [SameRecent] at hk
theorem sameRecents_ext {own own' ow ow' : Nat → Option α} : ∀ cs cs' : List (Cond α κ W),
    SameRecents P own own' cs cs' → (∀ o, OccursAny o cs → ow o = own o) →
    (∀ o, OccursAny o cs' → ow' o = own' o) → SameRecents P ow ow' cs cs'
  | [], [], _, _, _ => trivial
  | [], _ :: _, hk, _, _ => by simp [SameRecents] at hk
  | _ :: _, [], hk, _, _ => by simp [SameRecents] at hk
  | c :: cs, c' :: cs', hk, h, h' =>
    ⟨sameRecent_ext c c' hk.1 (fun x hx => h x (.inl hx)) fun x hx => h' x (.inl hx),
      sameRecents_ext cs cs' hk.2 (fun x hx => h x (.inr hx)) fun x hx => h' x (.inr hx)⟩
end

theorem sameRecents_leaves {own own' : Nat → Option α} {n : α} :
    ∀ (ds : List α) (k k' : Nat),
      (∀ x, k ≤ x → x < k + ds.length → own x = some n) →
      (∀ x, k' ≤ x → x < k' + ds.length → own' x = some n) →
      SameRecents P own own' (defaultLeaves k ds : List (Cond α κ W)) (defaultLeaves k' ds)
  | [], _, _, _, _ => trivial
  | d :: ds, k, k', h, h' => by
    have e1 := h k (Nat.le_refl _) (by simp)
    have e2 := h' k' (Nat.le_refl _) (by simp)
    refine ⟨⟨rfl, trivial, fun _ _ _ => e2.trans e1.symm⟩, 
      sameRecents_leaves (n := n) ds (k + 1) (k' + 1) ?_ ?_⟩
    · intro x h1 h2; exact h x (by omega) (by simp; omega)
    · intro x h1 h2; exact h' x (by omega) (by simp; omega)

/-- Default conditions for the same senders. -/
theorem IsDefault.sameRecent {st st' : Store α κ} {n : α} {deps : List α} {c c' : Cond α κ W}
    (h : IsDefault st n deps c) (h' : IsDefault st' n deps c') :
    SameRecent P st.owner st'.owner c c' := by
  obtain ⟨o, rfl, _, h3, h4⟩ := h.ex
  obtain ⟨o', rfl, _, h3', h4'⟩ := h'.ex
  match deps, h3, h4, h3', h4' with
  | [], _, _, _, _ => exact ⟨rfl, trivial, fun _ _ e => by cases e⟩
  | [d], h3, _, h3', _ => exact ⟨rfl, trivial, fun _ _ _ => (h3' d rfl).trans (h3 d rfl).symm⟩
  | d :: d' :: ds, _, h4, _, h4' =>
    simp only [Sys.defaultCond]
    rw [defaultLeaves_eq, defaultLeaves_eq]
    exact sameRecents_leaves _ _ _ (h4 (by simp)) (h4' (by simp))

/-! ## The start -/

/-- When a run has begun, the scheduler as it concerns the counts, lists and clock. -/
theorem Started.level (S : Started a s0 s) (T : Started a' t0 t)
    (queue : t0.queue = s0.queue) (nodes : t0.nodes = s0.nodes)
    (conds : ∀ n, (Dict.get? s.conds n = none ∧ Dict.get? t.conds n = none) ∨
      ∃ c c', Dict.get? s.conds n = some c ∧ Dict.get? t.conds n = some c' ∧
        SameRecent P s.store.owner t.store.owner c c')
    (sat : ∀ o, P o → t.store.sat o a'.id = s.store.sat o a.id)
    (clock : ∃ log log', Shows (s0.clock a.id) log ∧ Shows (t0.clock a'.id) log' ∧
      sinceUpdate log' = sinceUpdate log)
    (world : WorldFor a.id a'.id s0.world t0.world) :
    Level P s.store.owner t.store.owner a.id a'.id s t := by
  obtain ⟨f, f1, f2, _⟩ := S.total
  obtain ⟨f', f1', f2', _⟩ := T.total
  obtain ⟨l, l1, _⟩ := S.list
  obtain ⟨l', l1', _⟩ := T.list
  obtain ⟨log, log', g1, g2, g3⟩ := clock
  refine ⟨?_, ?_, conds, rfl, rfl, sat, ⟨f, f', f1, f1', ?_⟩, ⟨_, S.useable, T.useable⟩,
    ⟨⟨l, l1⟩, l', l1'⟩, ⟨log, log', S.shows g1, T.shows g2, g3⟩, ?_⟩
  · rw [S.queue, T.queue, queue]
  · rw [S.nodes, T.nodes, nodes]
  · intro ts n h; rw [f2 ts n h, f2' ts n h]
  · rw [S.world, T.world]; exact world

theorem Spec.SameStart.level (h : SameStart P a.id a'.id s0 t0)
    (hw : WorldFor a.id a'.id s0.world t0.world) {abs abs' : Bool}
    (hs : s0.start a = (s, .ok abs)) (ht : t0.start a' = (t, .ok abs')) :
    Level P s.store.owner t.store.owner a.id a'.id s t := by
  have S := Sys.start_ok hs
  have T := Sys.start_ok ht
  obtain ⟨x1, x2, x3, x4⟩ := S.conds_spec
  obtain ⟨y1, y2, y3, y4⟩ := T.conds_spec
  refine S.level T h.queue h.nodes (fun n => ?_) (fun o ho => ?_) h.clock hw
  · rcases h.conds n with ⟨g1, g2⟩ | ⟨c, c', g1, g2, g3, g4, g5⟩
    · by_cases hn : n ∈ s0.nodes
      · obtain ⟨deps, c, e1, e2, e3⟩ := x3 n hn g1
        obtain ⟨deps', c', e1', e2', e3'⟩ := y3 n (by rw [h.nodes]; exact hn) g2
        rw [h.graph, e1] at e1'
        cases e1'
        exact .inr ⟨c, c', e2, e2', e3.sameRecent e3'⟩
      · exact .inl ⟨(x4 n hn).trans g1, (y4 n (by rw [h.nodes]; exact hn)).trans g2⟩
    · exact .inr ⟨c, c', x2 n c g1, y2 n c' g2, sameRecent_ext c c' g3
        (fun o ho => x1.owner o (g4 o ho)) fun o ho => y1.owner o (g5 o ho)⟩
  · obtain ⟨k1, k2, k3⟩ := h.sat o ho
    rw [x1.sat o k1, y1.sat o k2]; exact k3

theorem Spec.SameEnds.level (h : SameEnds P a a') (own own' : Nat → Option α) :
    LevelArgs P own own' a.id a'.id a a' :=
  ⟨rfl, rfl, h.skip, h.esu _ _, h.seq _ _⟩

/-! ## Whole runs -/

theorem Level.resumed (h : Level P own own' i j s s') {w w' : List (List α) → World α κ W}
    (ys : List (List α)) (hw : WorldFor i j (w ys) (w' ys)) (pc : PC α) :
    Level P own own' i j (Spec.resumed w ys s pc) (Spec.resumed w' ys s' pc) := by
  unfold Spec.resumed
  split
  · exact ⟨h.queue, h.nodes, h.conds, h.own, h.own', h.sat, h.total, h.useable, h.list, h.clock, hw⟩
  · exact h

theorem yields_of_events {h h' : History α κ W} (e : h'.map Entry.ev = h.map Entry.ev) :
    yields h' = yields h := by
  have : ∀ h : History α κ W, yields h = (h.map Entry.ev).filterMap Event.yield? := by
    intro h; simp [yields, List.filterMap_map]; rfl
  rw [this, this, e]

theorem Level.run {w w' : List (List α) → World α κ W} {s1 t1 : Sys α κ W}
    (hw : ∀ ys, WorldFor a.id a'.id (w ys) (w' ys))
    (hs : s0.start a = (s1, .ok false)) (ht : t0.start a' = (t1, .ok false))
    (hl : Level P own own' a.id a'.id s1 t1) (ha : LevelArgs P own own' a.id a'.id a a')
    {h : History α κ W} {pc : PC α} (hr : Scripted w a s0 false h s pc) :
    ∃ h' s', Scripted w' a' t0 false h' s' pc ∧ h'.map Entry.ev = h.map Entry.ev ∧
      Level P own own' a.id a'.id s s' := by
  induction hr with
  | start e =>
    rw [hs] at e; cases e
    exact ⟨[], t1, .start ht, rfl, hl⟩
  | @step h s s2 pc pc2 ev hr hst ih =>
    obtain ⟨h', s', k1, k2, k3⟩ := ih
    have k4 := (k3.resumed (w := w) (w' := w') (yields h) (hw _) pc).step ha pc
    rw [hst] at k4
    rcases e : (Spec.resumed w' (yields h) s' pc).step a' false pc with ⟨s2', pc2', ev'⟩
    rw [e] at k4
    obtain ⟨k5, k6⟩ := k4
    cases k5
    have e' := e
    rw [← yields_of_events k2] at e
    refine ⟨_, _, .step k1 e, ?_, k6⟩
    rw [List.map_append, List.map_append, k2]
    cases ev <;> rfl

/-! ## Runs are deterministic -/

section
variable {w : List (List α) → World α κ W} {abs : Bool} {h h' : History α κ W} {pc pc' : PC α}

theorem Spec.Scripted.after (hr : Scripted w a s0 abs h s pc) :
    ∃ k, Props.scriptAfter w a s0 k = (h, s, pc) := by
  obtain ⟨t, ht⟩ := Props.scripted_start hr
  have e : (s0.start a).2.toOption.getD false = abs := by rw [ht]; rfl
  induction hr with
  | start hs => exact ⟨0, by unfold Props.scriptAfter; rw [hs]⟩
  | step hr hst ih =>
    obtain ⟨k, hk⟩ := ih
    refine ⟨k + 1, ?_⟩
    unfold Props.scriptAfter
    rw [hk]
    dsimp only
    rw [e, hst]

theorem scriptAfter_returned {k : Nat} (hk : Props.scriptAfter w a s0 k = (h, s, .returned)) (m : Nat) :
    Props.scriptAfter w a s0 (k + m) = (h, s, .returned) := by
  induction m with
  | zero => exact hk
  | succ m ih =>
    show Props.scriptAfter w a s0 (k + m + 1) = _
    unfold Props.scriptAfter
    rw [ih]
    simp [Spec.resumed, PC.suspended, Sys.step]

/-- A run that returns does so in one way. -/
theorem Spec.Scripted.returned_unique (hr : Scripted w a s0 abs h s .returned)
    (hr' : Scripted w a s0 abs h' s' .returned) : h' = h ∧ s' = s := by
  obtain ⟨k, hk⟩ := hr.after
  obtain ⟨k', hk'⟩ := hr'.after
  have e1 := scriptAfter_returned hk k'
  have e2 := scriptAfter_returned hk' k
  rw [Nat.add_comm, e2] at e1
  cases e1
  exact ⟨rfl, rfl⟩

end

/-! ## The next run -/

theorem Explicit.run {s : Sys α κ W} (h : Sys.Explicit s) {q} (ht : toposort s.graph = .ok q) :
    s.validateRunState = (s, none) := by
  unfold Sys.validateRunState
  rw [ht]
  exact Sys.Explicit.conditions _ h

/-- A run under a known id begins if all conditions are explicit and none is absolute. -/
theorem Sys.start_again (h : Sys.Explicit s) {q} (ht : toposort s.graph = .ok q)
    (hab : s.absoluteConds a = []) (hk : Known a.id s) :
    ∃ s', s.start a = (s', .ok false) := by
  obtain ⟨f, hf⟩ := Option.isSome_iff_exists.1 hk.total
  obtain ⟨u, hu⟩ := Option.isSome_iff_exists.1 hk.useable
  obtain ⟨l, hl⟩ := Option.isSome_iff_exists.1 hk.list
  obtain ⟨d, hd, hd2⟩ := Sys.getClock_frame s a.id
  unfold Sys.start
  rw [Explicit.run h ht]
  dsimp only
  have e1 : (s.getClock a.id).setupAbsolute a = ((s.getClock a.id).setClock a.id
      { ((s.getClock a.id).clock a.id) with time :=
        { ((s.getClock a.id).clock a.id).time with absolute_enabled := false } }, .ok false) := by
    unfold Sys.setupAbsolute
    have : (s.getClock a.id).absoluteConds a = [] := by rw [hd]; exact hab
    rw [this]
    rfl
  rw [e1]
  dsimp only
  rw [hd]
  simp only [Sys.initCounts, Sys.initTotal, Sys.initUseable, Sys.initList, Sys.initClock, Sys.setClock,
    hf, hu, hl, Dict.get?_set_self, Sys.resetUseable, Sys.resetTotal]
  exact ⟨_, rfl⟩

theorem Spec.Repeatable.start (h : Repeatable a.id s0) {abs : Bool} (hs : s0.start a = (s, .ok abs)) :
    ∀ n c, Dict.get? s.conds n = some c → Recent c ∧ ∀ o, Occurs o c → o < s.store.fresh := by
  obtain ⟨x1, x2, x3, x4⟩ := (Sys.start_ok hs).conds_spec
  intro n c hc
  rcases e : Dict.get? s0.conds n with _ | c0
  · by_cases hn : n ∈ s0.nodes
    · obtain ⟨deps, c', _, g2, g3⟩ := x3 n hn e
      rw [hc] at g2; cases g2
      obtain ⟨o, rfl, g4, _⟩ := g3.ex
      refine ⟨fun own => ?_, fun x hx => ?_⟩
      · match deps with
        | [] => exact ⟨rfl, trivial, fun _ _ _ => rfl⟩
        | [d] => exact ⟨rfl, trivial, fun _ _ _ => rfl⟩
        | d :: d' :: ds =>
          simp only [Sys.defaultCond]
          rw [defaultLeaves_eq]
          have : ∀ (ds : List α) (k : Nat), SameRecents (fun _ => False) own own
              (defaultLeaves k ds : List (Cond α κ W)) (defaultLeaves k ds) := by
            intro ds
            induction ds with
            | nil => intro _; trivial
            | cons d ds ih => intro k; exact ⟨⟨rfl, trivial, fun _ _ _ => rfl⟩, ih _⟩
          exact this _ _
      · have := (defaultCond_occurs o deps x hx).2
        omega
    · rw [x4 n hn, e] at hc; cases hc
  · have := x2 n c0 e
    rw [hc] at this; cases this
    obtain ⟨k1, k2⟩ := h.conds n c e
    exact ⟨k1, fun o ho => Nat.lt_of_lt_of_le (k2 o ho) x1.fresh⟩

/-- What a complete run leaves behind. -/
theorem Spec.Repeatable.after (h : Repeatable a.id s0) (ha : SameEnds (fun _ => False) a a)
    (hk : a.skip = false) {w : List (List α) → World α κ W} {hist : History α κ W}
    (hr : Scripted w a s0 false hist s .returned) :
    Repeatable a.id s ∧ ∃ s1, s0.start a = (s1, .ok false) ∧ s.conds = s1.conds ∧
      s.store.owner = s1.store.owner ∧ s.graph = s0.graph ∧ s.queue = s0.queue ∧ s.nodes = s0.nodes ∧
      Known a.id s := by
  obtain ⟨s1, h1, h2, h3, h4⟩ := hr.reach.conds_start (by rintro _ _ ⟨w, rfl⟩; rfl)
    (by rintro _ _ ⟨w, rfl⟩; rfl) (by rintro _ _ ⟨w, rfl⟩; exact Nat.le_refl _)
  have S := Sys.start_ok h1
  have hc := h.start h1
  obtain ⟨log, l1, l2⟩ := h.clock
  have hl : Level (fun _ => False) s1.store.owner s1.store.owner a.id a.id s1 s1 := by
    refine S.level S rfl rfl (fun n => ?_) (fun _ ho => ho.elim) ⟨log, log, l1, l1, rfl⟩
      ⟨fun _ => rfl, fun _ _ => rfl, fun _ _ _ => rfl⟩
    rcases e : Dict.get? s1.conds n with _ | c
    · exact .inl ⟨rfl, rfl⟩
    · exact .inr ⟨c, c, rfl, rfl, (hc n c e).1 _⟩
  obtain ⟨h', s', k1, k2, k3⟩ := Level.run (w := w) (w' := w)
    (fun _ => ⟨fun _ => rfl, fun _ _ => rfl, fun _ _ _ => rfl⟩) h1 h1 hl (ha.level _ _) hr
  obtain ⟨f, _, f1, _⟩ := k3.total
  obtain ⟨u, u1, _⟩ := k3.useable
  obtain ⟨⟨l, l3⟩, _⟩ := k3.list
  have hclk := (Props.C19_completed_run hr.reach (by rintro _ _ ⟨w, rfl⟩; rfl) l1).1
  have hq : s.graph = s0.graph ∧ s.queue = s0.queue ∧ s.nodes = s0.nodes := by
    refine hr.reach.ind (P := fun _ s _ => s.graph = s0.graph ∧ s.queue = s0.queue ∧ s.nodes = s0.nodes)
      ?_ ?_ ?_
    · intro s hs
      have := Sys.start_ok hs
      exact ⟨this.graph, this.queue, this.nodes⟩
    · intro _ _ _ _ _ _ _ ih hst
      have := hst.frame
      exact ⟨this.graph.trans ih.1, this.queue.trans ih.2.1, this.nodes.trans ih.2.2⟩
    · rintro _ _ _ _ _ ih _ ⟨w, rfl⟩
      exact ih
  refine ⟨⟨fun n c e => ?_, _, hclk, ?_⟩, s1, h1, h2, h3, hq.1, hq.2.1, hq.2.2, ?_⟩
  · rw [h2] at e
    obtain ⟨g1, g2⟩ := hc n c e
    exact ⟨g1, fun o ho => Nat.lt_of_lt_of_le (g2 o ho) h4⟩
  · rw [hk]
    unfold sinceUpdate
    simp [TimeScale.val]
  · exact ⟨by rw [f1]; rfl, by rw [u1]; rfl, by rw [l3]; rfl⟩

/-- Two schedulers, one after a complete run of the other. -/
theorem Spec.Repeatable.next (h : Repeatable a.id s0) (ha : SameEnds (fun _ => False) a a)
    (hk : a.skip = false) {w : List (List α) → World α κ W} {hist : History α κ W}
    (hr : Scripted w a s0 false hist s .returned) {wd : World α κ W}
    (hw : WorldFor a.id a.id s0.world wd) :
    ∃ s1 t1, s0.start a = (s1, .ok false) ∧
      ({ s with world := wd } : Sys α κ W).start a = (t1, .ok false) ∧
      Level (fun _ => False) s1.store.owner s1.store.owner a.id a.id s1 t1 := by
  obtain ⟨⟨r1, log', r2, r3⟩, s1, h1, h2, h3, h4, h5, h6, h7⟩ := h.after ha hk hr
  have S := Sys.start_ok h1
  obtain ⟨log, l1, l2⟩ := h.clock
  obtain ⟨q, hq⟩ := S.topo
  have hex : Sys.Explicit ({ s with world := wd } : Sys α κ W) := by
    intro n hn
    show (Dict.get? s.conds n).isSome
    rw [h2]
    exact Sys.start_explicit h1 n (by rw [S.nodes, ← h6]; exact hn)
  have htop : toposort ({ s with world := wd } : Sys α κ W).graph = .ok q := by
    show toposort s.graph = _
    rw [h4]; exact hq
  have hab : ({ s with world := wd } : Sys α κ W).absoluteConds a = [] := by
    have : ({ s with world := wd } : Sys α κ W).absoluteConds a = s1.absoluteConds a := by
      unfold Sys.absoluteConds
      rw [← h2]
    rw [this]
    rcases Sys.start_abs h1 with ⟨_, h, _⟩ | ⟨h, _⟩
    · exact h
    · cases h
  obtain ⟨t1, ht1⟩ := Sys.start_again hex htop hab ⟨h7.total, h7.useable, h7.list⟩
  have T := Sys.start_ok ht1
  obtain ⟨v, v1, v2, v3⟩ := T.conds
  rw [Explicit.run hex htop] at v1
  cases v1
  have hco : t1.conds = s1.conds := v2.trans h2
  have hst : t1.store.owner = s1.store.owner := by rw [v3]; exact h3
  have := S.level (P := fun _ => False) T h5 h6 (fun n => by
    rw [hco]
    rcases e : Dict.get? s1.conds n with _ | c
    · exact .inl ⟨rfl, rfl⟩
    · refine .inr ⟨c, c, rfl, rfl, ?_⟩
      rw [hst]
      exact (h.start h1 n c e).1 _) (fun _ ho => ho.elim)
    ⟨log, log', l1, r2, by rw [l2, r3]⟩ hw
  rw [hst] at this
  exact ⟨s1, t1, h1, ht1, this⟩

end GS
