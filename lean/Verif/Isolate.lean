import Verif.Agree
/-!
# Activity under other execution ids

`Spec.Others i` is any sequence of operations under ids other than `i`.  It does not
change what a run under `i` does.
-/

set_option linter.unusedSectionVars false

namespace GS
open Spec
variable {α κ W β : Type _} [DecidableEq α] [DecidableEq κ]
variable {E : Sys α κ W → Sys α κ W → Prop} {a : RunArgs α κ W} {s0 s t : Sys α κ W}
variable {abs : Bool} {h : History α κ W} {pc : PC α} {i : Option κ}

theorem Frame.agree {j : Option κ} (h : Frame j s t) (hj : j ≠ i) : Agree i s t :=
  ⟨⟨h.nodes, h.mode, h.graph, h.queue, h.world, h.total i hj.symm, h.useable i hj.symm,
      h.list i hj.symm, h.stamps i hj.symm, h.clocks i hj.symm⟩,
    ⟨h.store.owner, h.store.fresh, fun o => h.store.other o i hj.symm⟩, h.conds, h.defaultUnit⟩

namespace Sys

/-! ## The beginning of a run under another id -/

theorem getClock_other {j : Option κ} (s : Sys α κ W) : Frame j s (s.getClock j) := by
  unfold getClock
  split
  · exact .refl _ _
  · exact Frame.setClock _ _ _

theorem setupAbsolute_other {s s' : Sys α κ W} {r} (h : s.setupAbsolute a = (s', r)) :
    Frame a.id s s' := by
  unfold setupAbsolute at h
  dsimp only at h
  split at h
  · obtain ⟨rfl, _⟩ := Prod.mk.inj h
    exact Frame.setClock _ _ _
  · split at h
    · obtain ⟨rfl, _⟩ := Prod.mk.inj h
      exact .refl _ _
    · obtain ⟨rfl, _⟩ := Prod.mk.inj h
      exact Frame.setClock _ _ _

theorem initTotal_other {s s' : Sys α κ W} {j base} (h : s.initTotal j base = .ok s') :
    Frame j s s' := by
  unfold initTotal at h
  split at h
  · cases h; exact .refl _ _
  · split at h
    · cases h; exact Frame.putTotal _ _ _
    · split at h
      · cases h
      · cases h; exact Frame.putTotal _ _ _

theorem initUseable_other {s s' : Sys α κ W} {j base} (h : s.initUseable j base = .ok s') :
    Frame j s s' := by
  unfold initUseable at h
  split at h
  · cases h; exact .refl _ _
  · split at h
    · cases h; exact Frame.putUseable _ _ _
    · split at h
      · cases h
      · cases h; exact Frame.putUseable _ _ _

theorem initList_other {s s' : Sys α κ W} {j base} (h : s.initList j base = .ok s') :
    Frame j s s' := by
  unfold initList at h
  split at h
  · cases h; exact .refl _ _
  · split at h
    · cases h; exact Frame.putList _ _ _
    · split at h
      · cases h
      · cases h; exact Frame.putList _ _ _

theorem initClock_other {s s' : Sys α κ W} {j base} (h : s.initClock j base = .ok s') :
    Frame j s s' := by
  unfold initClock at h
  split at h
  · cases h; exact .refl _ _
  · split at h
    · cases h; exact Frame.setClock _ _ _
    · split at h
      · cases h
      · cases h; exact Frame.setClock _ _ _

theorem initCounts_other {s s' : Sys α κ W} {j base r} (h : s.initCounts j base = (s', r)) :
    Frame j s s' := by
  unfold initCounts at h
  split at h
  · obtain ⟨rfl, _⟩ := Prod.mk.inj h; exact .refl _ _
  · rename_i s1 h1
    have f1 := initTotal_other h1
    split at h
    · obtain ⟨rfl, _⟩ := Prod.mk.inj h; exact f1
    · rename_i s2 h2
      have f2 := f1.trans (initUseable_other h2)
      split at h
      · obtain ⟨rfl, _⟩ := Prod.mk.inj h; exact f2
      · rename_i s3 h3
        have f3 := f2.trans (initList_other h3)
        split at h
        · obtain ⟨rfl, _⟩ := Prod.mk.inj h; exact f3
        · rename_i s4 h4
          obtain ⟨rfl, _⟩ := Prod.mk.inj h; exact f3.trans (initClock_other h4)

theorem resetTotal_other {s s' : Sys α κ W} {j ts} (h : s.resetTotal ts j = .ok s') :
    Frame j s s' := by
  unfold resetTotal at h
  split at h
  · cases h
  · cases h; exact Frame.putTotal _ _ _

/-- Apart from making implicit conditions explicit, the beginning of a run changes only
what is stored under its id. -/
theorem start_other {s s' : Sys α κ W} {r} (h : s.start a = (s', r)) :
    Frame a.id s.validateRunState.1 s' := by
  unfold start at h
  rcases hv : s.validateRunState with ⟨s1, _ | e⟩
  · rw [hv] at h
    dsimp only at h
    rcases hx : (s1.getClock a.id).setupAbsolute a with ⟨s2, e | b⟩
    · rw [hx] at h
      obtain ⟨rfl, _⟩ := Prod.mk.inj h
      exact (getClock_other s1).trans (setupAbsolute_other hx)
    · rw [hx] at h
      dsimp only at h
      have f1 := (getClock_other s1).trans (setupAbsolute_other hx)
      rcases hi : s2.initCounts a.id a.base with ⟨s3, _ | e⟩
      · rw [hi] at h
        dsimp only at h
        have f2 := (f1.trans (initCounts_other hi)).trans
          (Frame.putUseable a.id s3 (fun _ _ => 0))
        split at h
        · obtain ⟨rfl, _⟩ := Prod.mk.inj h
          exact f2
        · rename_i hr
          obtain ⟨rfl, _⟩ := Prod.mk.inj h
          exact f2.trans (resetTotal_other hr)
      · rw [hi] at h
        obtain ⟨rfl, _⟩ := Prod.mk.inj h
        exact f1.trans (initCounts_other hi)
  · rw [hv] at h
    obtain ⟨rfl, _⟩ := Prod.mk.inj h
    exact .refl _ _

/-! ## Implicit conditions -/

theorem putOwner_same {st st' : Store α κ} (h : SameStore i st st') (o : OId) (v : Option α) :
    SameStore i (st.putOwner o v) (st'.putOwner o v) :=
  ⟨by simp only [Store.putOwner, h.owner], h.fresh, h.sat⟩

mutual
theorem setOwner_same (v : Option α) : ∀ (c : Cond α κ W) (st st' : Store α κ),
    SameStore i st st' → SameStore i (setOwner v c st) (setOwner v c st')
  | .leaf o _, _, _, h => by unfold setOwner; exact putOwner_same h o v
  | .whileNot o _, _, _, h => by unfold setOwner; exact putOwner_same h o v
  | .all o args, _, _, h => by unfold setOwner; exact setOwners_same v args _ _ (putOwner_same h o v)
  | .any o args, _, _, h => by unfold setOwner; exact setOwners_same v args _ _ (putOwner_same h o v)
  | .not o c, _, _, h => by unfold setOwner; exact setOwner_same v c _ _ (putOwner_same h o v)
  | .nwhen o c _, _, _, h => by unfold setOwner; exact setOwner_same v c _ _ (putOwner_same h o v)
theorem setOwners_same (v : Option α) : ∀ (cs : List (Cond α κ W)) (st st' : Store α κ),
    SameStore i st st' → SameStore i (setOwners v cs st) (setOwners v cs st')
  | [], _, _, h => h
  | c :: cs, st, st', h => by
    unfold setOwners
    rw [h.owner]
    split
    · exact setOwners_same v cs _ _ (setOwner_same v c _ _ h)
    · exact setOwners_same v cs _ _ h
end

theorem alloc_same (h : Agree i s t) (k : Nat) : Agree i (s.alloc k) (t.alloc k) := by
  refine ⟨h.view, ⟨?_, ?_, ?_⟩, h.conds, h.unit⟩
  · simp only [alloc, h.store.owner, h.store.fresh]
  · simp only [alloc, h.store.fresh]
  · intro o; simp only [alloc, h.store.fresh, h.store.sat]

theorem addBasic_same (h : Agree i s t) (n : α) (c : Cond α κ W) :
    Agree i (s.addBasic n c) (t.addBasic n c) :=
  ⟨h.view, setOwner_same _ _ _ _ h.store, by simp only [addBasic, h.conds], h.unit⟩

theorem validateConditions_same : ∀ (ns : List α) {s t : Sys α κ W}, Agree i s t →
    SamePair i (validateConditions ns s) (validateConditions ns t)
  | [], _, _, h => ⟨h, rfl⟩
  | n :: ns, s, t, h => by
    unfold validateConditions
    rw [h.conds, h.view.graph, h.store.fresh]
    split
    · exact validateConditions_same ns h
    · split
      · exact ⟨h, rfl⟩
      · exact validateConditions_same ns (addBasic_same (alloc_same h _) _ _)

theorem validateRunState_same (h : Agree i s t) :
    SamePair i s.validateRunState t.validateRunState := by
  unfold validateRunState
  rw [h.view.graph, h.view.nodes]
  split
  · exact ⟨h, rfl⟩
  · exact validateConditions_same _ h

theorem validateConditions_mono : ∀ (ns : List α) (s : Sys α κ W) (n : α) (c : Cond α κ W),
    Dict.get? s.conds n = some c → Dict.get? (validateConditions ns s).1.conds n = some c
  | [], _, _, _, h => h
  | m :: ns, s, n, c, h => by
    unfold validateConditions
    split
    · exact validateConditions_mono ns s n c h
    · rename_i hm
      split
      · exact h
      · apply validateConditions_mono ns _ n c
        show Dict.get? (Dict.set s.conds m _) n = some c
        rw [Dict.get?_set_ne _, h]
        rintro rfl
        rw [hm] at h
        cases h

theorem validateConditions_view (ns : List α) (s : Sys α κ W) :
    (validateConditions ns s).1.toView = s.toView := by
  obtain ⟨cs, st, e⟩ := validateConditions_frame ns s _ _ rfl
  rw [e]

theorem validateConditions_idem : ∀ (ns : List α) (s : Sys α κ W),
    validateConditions ns (validateConditions ns s).1 = validateConditions ns s
  | [], _ => rfl
  | n :: ns, s => by
    cases hc : Dict.get? s.conds n with
    | some c =>
      have e : validateConditions (n :: ns) s = validateConditions ns s := by
        rw [validateConditions, hc]
      rw [e]
      have h1 := validateConditions_mono ns s n c hc
      rw [validateConditions, h1]
      exact validateConditions_idem ns s
    | none =>
      cases hd : Dict.get? s.graph n with
      | none =>
        have e : validateConditions (n :: ns) s = (s, some .keyError) := by
          rw [validateConditions, hc]; simp only [hd]
        rw [e]
        exact e
      | some deps =>
        have e : validateConditions (n :: ns) s = validateConditions ns
            ((s.alloc (deps.length + 1)).addBasic n (defaultCond s.store.fresh deps)) := by
          rw [validateConditions, hc]; simp only [hd]
        rw [e]
        have h1 := validateConditions_mono ns
          ((s.alloc (deps.length + 1)).addBasic n (defaultCond s.store.fresh deps)) n
          (defaultCond s.store.fresh deps) (Dict.get?_set_self _ _ _)
        rw [validateConditions, h1]
        exact validateConditions_idem ns _

theorem validateRunState_idem (s : Sys α κ W) :
    s.validateRunState.1.validateRunState = s.validateRunState := by
  unfold validateRunState
  cases ht : toposort s.graph with
  | error e => simp only [ht]
  | ok q =>
    have hf := validateConditions_view s.nodes s
    dsimp only
    rw [hf, ht]
    exact validateConditions_idem _ _

/-! ## The beginning of a run in agreeing states -/

/-- Both states lead to agreeing states when implicit conditions are made explicit. -/
def Ready (i : Option κ) (s t : Sys α κ W) : Prop :=
  SamePair i s.validateRunState t.validateRunState

theorem deleteCounts_other (s : Sys α κ W) (j : Option κ) : Frame j s (s.deleteCounts j) :=
  ⟨rfl, rfl, rfl, rfl, rfl, rfl, rfl, .refl _ _,
    fun i hi => by simp [deleteCounts, Dict.get?_delete, hi],
    fun i hi => by simp [deleteCounts, Dict.get?_delete, hi],
    fun i hi => by simp [deleteCounts, Dict.get?_delete, hi],
    fun i hi => by simp [deleteCounts, Dict.get?_delete, hi],
    fun i hi => by simp [deleteCounts, Dict.get?_delete, hi]⟩

theorem others_ready (ho : Others i s t) : Ready i s t := by
  have tr : ∀ {s1 s2 s3 : Sys α κ W}, Ready i s1 s2 → Ready i s2 s3 → Ready i s1 s3 :=
    fun h k => ⟨h.sys.trans k.sys, k.res.trans h.res⟩
  induction ho with
  | refl => exact ⟨.refl _ _, rfl⟩
  | start b r _ hb hs ih =>
    have := validateRunState_same ((start_other hs).agree hb)
    rw [validateRunState_idem] at this
    exact tr ih this
  | step b abs pc pc' ev _ hb hs ih =>
    exact tr ih (validateRunState_same ((step_stepR hs).frame.agree hb))
  | clock j _ hj ih => exact tr ih (validateRunState_same ((getClock_other _).agree hj))
  | endSequence j _ hj hs ih =>
    refine tr ih (validateRunState_same (Frame.agree (j := j) ?_ hj))
    unfold endEnvironmentSequence incrClock at hs
    split at hs
    · cases hs; exact Frame.setClock _ _ _
    · cases hs
  | delete j _ hj ih => exact tr ih (validateRunState_same ((deleteCounts_other _ _).agree hj))

theorem getClock_same (h : Agree i s t) : Agree i (s.getClock i) (t.getClock i) := by
  unfold getClock
  rw [h.view.clocks]
  split
  · exact h
  · exact h.setClock _

theorem setupAbsolute_same (h : Agree a.id s t) :
    SamePair a.id (s.setupAbsolute a) (t.setupAbsolute a) := by
  have hc : t.absoluteConds a = s.absoluteConds a := by unfold absoluteConds; rw [h.conds]
  have hu : ∀ cs, t.absoluteUnit cs = s.absoluteUnit cs := by
    intro cs; unfold absoluteUnit; rw [h.view.mode, h.view.queue, h.unit]
  unfold setupAbsolute
  dsimp only
  rw [hc, hu, h.view.clock]
  split
  · exact ⟨h.setClock _, rfl⟩
  · split
    · exact ⟨h, rfl⟩
    · exact ⟨h.setClock _, rfl⟩

theorem initCounts_same (h : Agree i s t) {base : Option (Option κ)}
    (hk : base = none ∨ Known i s) (hc : (Dict.get? s.clocks i).isSome) :
    SamePair i (s.initCounts i base) (t.initCounts i base) := by
  rcases hk with rfl | hk
  · have h1 : ∃ s1 t1, s.initTotal i none = .ok s1 ∧ t.initTotal i none = .ok t1 ∧ Agree i s1 t1 := by
      unfold initTotal
      rw [h.view.total]
      split
      · exact ⟨_, _, rfl, rfl, h⟩
      · exact ⟨_, _, rfl, rfl, h.putTotal _⟩
    obtain ⟨s1, t1, e1, e2, g1⟩ := h1
    have h2 : ∃ s2 t2, s1.initUseable i none = .ok s2 ∧ t1.initUseable i none = .ok t2 ∧
        Agree i s2 t2 := by
      unfold initUseable
      rw [g1.view.useable]
      split
      · exact ⟨_, _, rfl, rfl, g1⟩
      · exact ⟨_, _, rfl, rfl, g1.putUseable _⟩
    obtain ⟨s2, t2, e3, e4, g2⟩ := h2
    have h3 : ∃ s3 t3, s2.initList i none = .ok s3 ∧ t2.initList i none = .ok t3 ∧
        Agree i s3 t3 := by
      unfold initList
      rw [g2.view.list]
      split
      · exact ⟨_, _, rfl, rfl, g2⟩
      · exact ⟨_, _, rfl, rfl, g2.putList _⟩
    obtain ⟨s3, t3, e5, e6, g3⟩ := h3
    have h4 : ∃ s4 t4, s3.initClock i none = .ok s4 ∧ t3.initClock i none = .ok t4 ∧
        Agree i s4 t4 := by
      unfold initClock
      rw [g3.view.clocks]
      split
      · exact ⟨_, _, rfl, rfl, g3⟩
      · exact ⟨_, _, rfl, rfl, g3.setClock _⟩
    obtain ⟨s4, t4, e7, e8, g4⟩ := h4
    simp only [initCounts, e1, e2, e3, e4, e5, e6, e7, e8]
    exact ⟨g4, rfl⟩
  · obtain ⟨f, hf⟩ := Option.isSome_iff_exists.1 hk.total
    obtain ⟨u, hu⟩ := Option.isSome_iff_exists.1 hk.useable
    obtain ⟨l, hl⟩ := Option.isSome_iff_exists.1 hk.list
    obtain ⟨c, hc⟩ := Option.isSome_iff_exists.1 hc
    have hf' := h.view.total.trans hf
    have hu' := h.view.useable.trans hu
    have hl' := h.view.list.trans hl
    have hc' := h.view.clocks.trans hc
    have e1 : s.initCounts i base = (s, none) := by
      simp only [initCounts, initTotal, initUseable, initList, initClock, hf, hu, hl, hc]
    have e2 : t.initCounts i base = (t, none) := by
      simp only [initCounts, initTotal, initUseable, initList, initClock, hf', hu', hl', hc']
    rw [e1, e2]
    exact ⟨h, rfl⟩

theorem start_same (h : Ready a.id s t) (hk : a.base = none ∨ Known a.id s) :
    SamePair a.id (s.start a) (t.start a) := by
  unfold start
  obtain ⟨h1, h2⟩ := h
  have hv : s.validateRunState.1.toView = s.toView := by
    unfold validateRunState
    split
    · rfl
    · exact validateConditions_view _ _
  rcases e1 : s.validateRunState with ⟨s1, r1⟩
  rcases e2 : t.validateRunState with ⟨t1, r2⟩
  rw [e1, e2] at h1 h2
  rw [e1] at hv
  simp only at h1 h2 hv
  subst h2
  cases r2 with
  | some e => exact ⟨h1, rfl⟩
  | none =>
    dsimp only
    have h3 := setupAbsolute_same (a := a) (getClock_same h1)
    rcases e3 : (s1.getClock a.id).setupAbsolute a with ⟨s2, r3⟩
    rcases e4 : (t1.getClock a.id).setupAbsolute a with ⟨t2, r4⟩
    rw [e3, e4] at h3
    obtain ⟨h4, h5⟩ := h3
    simp only at h4 h5
    subst h5
    cases r4 with
    | error e => exact ⟨h4, rfl⟩
    | ok b =>
      dsimp only
      obtain ⟨ab, ai, ae, hs2⟩ := setupAbsolute_ok e3
      obtain ⟨d, hd, _⟩ := getClock_frame s1 a.id
      have hk2 : a.base = none ∨ Known a.id s2 := by
        refine hk.imp_right fun hk => ?_
        rw [hs2, hd]
        refine ⟨?_, ?_, ?_⟩
        · show (Dict.get? s1.countsTotal a.id).isSome
          rw [hv]; exact hk.total
        · show (Dict.get? s1.countsUseable a.id).isSome
          rw [hv]; exact hk.useable
        · show (Dict.get? s1.execList a.id).isSome
          rw [hv]; exact hk.list
      have hcl : (Dict.get? s2.clocks a.id).isSome := by
        rw [hs2]
        show (Dict.get? (Dict.set _ _ _) _).isSome
        rw [Dict.get?_set_self]; rfl
      have h6 := initCounts_same h4 hk2 hcl
      rcases e5 : s2.initCounts a.id a.base with ⟨s3, r5⟩
      rcases e6 : t2.initCounts a.id a.base with ⟨t3, r6⟩
      rw [e5, e6] at h6
      obtain ⟨h7, h8⟩ := h6
      simp only at h7 h8
      subst h8
      cases r6 with
      | some e => exact ⟨h7, rfl⟩
      | none =>
        dsimp only
        have h9 : Agree a.id (s3.resetUseable a.id) (t3.resetUseable a.id) := h7.putUseable _
        have h10 := resetTotal_same h9 .environment_state_update
        generalize (s3.resetUseable a.id).resetTotal .environment_state_update a.id = x at h10
        generalize (t3.resetUseable a.id).resetTotal .environment_state_update a.id = y at h10
        cases h10 with
        | error e => exact ⟨h9, rfl⟩
        | ok h11 => exact ⟨h11, rfl⟩

/-! ## The whole run -/

/-- Every node has a condition. -/
def Explicit (s : Sys α κ W) : Prop := ∀ n ∈ s.nodes, (Dict.get? s.conds n).isSome

theorem Explicit.conditions : ∀ (ns : List α) {s : Sys α κ W},
    (∀ n ∈ ns, (Dict.get? s.conds n).isSome) → validateConditions ns s = (s, none)
  | [], _, _ => rfl
  | n :: ns, s, h => by
    obtain ⟨c, hc⟩ := Option.isSome_iff_exists.1 (h n (List.mem_cons_self ..))
    rw [validateConditions, hc]
    exact Explicit.conditions ns fun m hm => h m (List.mem_cons_of_mem _ hm)

theorem Explicit.validate (h : Explicit s) : s.validateRunState.1 = s := by
  unfold validateRunState
  split
  · rfl
  · rw [Explicit.conditions _ h]

theorem Explicit.frame {j : Option κ} (h : Explicit s) (hf : Frame j s t) : Explicit t := by
  unfold Explicit
  rw [hf.nodes, hf.conds]
  exact h

theorem Explicit.others (h : Explicit s) (ho : Others i s t) : Agree i s t ∧ Explicit t := by
  induction ho with
  | refl => exact ⟨.refl _ _, h⟩
  | start b r _ hb hs ih =>
    have h1 := start_other hs
    rw [ih.2.validate] at h1
    exact ⟨ih.1.trans (h1.agree hb), ih.2.frame h1⟩
  | step b abs pc pc' ev _ hb hs ih =>
    exact ⟨ih.1.trans ((step_stepR hs).frame.agree hb), ih.2.frame (step_stepR hs).frame⟩
  | clock j _ hj ih =>
    exact ⟨ih.1.trans ((getClock_other _).agree hj), ih.2.frame (getClock_other _)⟩
  | @endSequence s1 s2 j _ hj hs ih =>
    have h1 : Frame j s1 s2 := by
      unfold endEnvironmentSequence incrClock at hs
      split at hs
      · cases hs; exact Frame.setClock _ _ _
      · cases hs
    exact ⟨ih.1.trans (h1.agree hj), ih.2.frame h1⟩
  | delete j _ hj ih =>
    exact ⟨ih.1.trans ((deleteCounts_other _ _).agree hj), ih.2.frame (deleteCounts_other _ _)⟩

theorem validateConditions_explicit : ∀ (ns : List α) (s : Sys α κ W) (s' : Sys α κ W),
    validateConditions ns s = (s', none) → ∀ n ∈ ns, (Dict.get? s'.conds n).isSome
  | [], _, _, _, _, h => absurd h (List.not_mem_nil)
  | m :: ns, s, s', h, n, hn => by
    unfold validateConditions at h
    split at h
    · rename_i c hc
      rcases List.mem_cons.1 hn with rfl | hn
      · have := validateConditions_mono ns s _ _ hc
        rw [h] at this
        rw [this]; rfl
      · exact validateConditions_explicit ns s s' h n hn
    · split at h
      · cases h
      · rename_i deps hd
        rcases List.mem_cons.1 hn with rfl | hn
        · have := validateConditions_mono ns
            ((s.alloc (deps.length + 1)).addBasic n (defaultCond s.store.fresh deps)) n _
            (Dict.get?_set_self s.conds n _)
          rw [h] at this
          rw [this]; rfl
        · exact validateConditions_explicit ns _ s' h n hn

theorem start_explicit {s' : Sys α κ W} (h : s.start a = (s', .ok abs)) : Explicit s' := by
  have hs := start_ok h
  obtain ⟨s1, h1, h2, h3⟩ := hs.conds
  have h4 := (validateRunState_ok h1)
  unfold validateRunState at h1
  split at h1
  · cases h1
  · intro n hn
    rw [hs.nodes] at hn
    rw [h2]
    exact validateConditions_explicit _ _ _ h1 n hn

/-! ### Local conditions -/

theorem defaultCond_local (o : OId) (deps : List α) :
    LocalCond i (defaultCond o deps : Cond α κ W) := by
  have hl : ∀ (ps : List (α × Nat)), LocalConds (W := W) i (ps.map fun p =>
      (Cond.leaf (o + 1 + p.2) (.everyNCalls p.1 1) : Cond α κ W)) := by
    intro ps
    induction ps with
    | nil => trivial
    | cons p ps ih => exact ⟨trivial, ih⟩
  match deps with
  | [] => trivial
  | [d] => trivial
  | d :: e :: ds => exact hl _

theorem validateConditions_local : ∀ (ns : List α) (s : Sys α κ W),
    (∀ n c, Dict.get? s.conds n = some c → LocalCond i c) →
    ∀ n c, Dict.get? (validateConditions ns s).1.conds n = some c → LocalCond i c
  | [], _, h => h
  | m :: ns, s, h => by
    unfold validateConditions
    split
    · exact validateConditions_local ns s h
    · split
      · exact h
      · apply validateConditions_local ns
        intro n c hc
        have hc : Dict.get? (Dict.set s.conds m _) n = some c := hc
        rw [Dict.get?_set] at hc
        split at hc
        · cases hc; exact defaultCond_local _ _
        · exact h n c hc

theorem start_local {s' : Sys α κ W} (h : s.start a = (s', .ok abs))
    (hl : ∀ n c, Dict.get? s.conds n = some c → LocalCond i c) :
    ∀ n c, Dict.get? s'.conds n = some c → LocalCond i c := by
  have hs := start_ok h
  obtain ⟨s1, h1, h2, h3⟩ := hs.conds
  unfold validateRunState at h1
  split at h1
  · cases h1
  · intro n c hn
    rw [h2] at hn
    have := validateConditions_local s.nodes s hl n c
    rw [h1] at this
    exact this hn

end Sys

open Sys in
/-- A run that is interleaved with activity under other ids (before and while it is
suspended) does what the undisturbed run does. -/
theorem Reach.undisturbed {s00 : Sys α κ W} (ho : Others a.id s00 s0)
    (hr : Reach (Others a.id) a s0 abs h s pc)
    (hk : a.base = none ∨ Known a.id s00)
    (he : LocalCond a.id a.esu) (hq : LocalCond a.id a.seq)
    (hc : ∀ n c, Dict.get? s00.conds n = some c → LocalCond a.id c) :
    ∃ h2 s2, Reach (fun _ _ => False) a s00 abs h2 s2 pc ∧ h2.map (·.ev) = h.map (·.ev) ∧
      Agree a.id s2 s ∧ Explicit s ∧ ∀ n c, Dict.get? s2.conds n = some c → LocalCond a.id c := by
  induction hr with
  | @start s1 abs hs =>
    have h1 := start_same (others_ready ho) hk
    rcases h2 : s00.start a with ⟨s2, r⟩
    rw [hs, h2] at h1
    obtain ⟨g1, g2⟩ := h1
    simp only at g1 g2
    subst g2
    exact ⟨[], s2, Reach.start h2, rfl, g1, start_explicit hs, start_local h2 hc⟩
  | @step abs h s s' pc pc' ev hr hs ih =>
    obtain ⟨h2, s2, h3, h4, h5, hx, h6⟩ := ih
    rcases hs2 : s2.step a abs pc with ⟨s2', pc2, ev2⟩
    have h7 := Sys.step_same h5 abs pc he hq h6
    rw [hs, hs2] at h7
    obtain ⟨g1, g2⟩ := h7
    simp only [Prod.mk.injEq] at g1 g2
    obtain ⟨g2, g3⟩ := g2
    subst g2 g3
    refine ⟨_, s2', Reach.step h3 hs2, ?_, g1, hx.frame (step_stepR hs).frame, ?_⟩
    · rw [List.map_append, List.map_append, h4]
      cases ev <;> simp
    · intro n c hn
      exact h6 n c (by rw [← (Sys.step_stepR hs2).frame.conds]; exact hn)
  | env hr hp hee ih =>
    obtain ⟨h2, s2, h3, h4, h5, hx, h6⟩ := ih
    obtain ⟨g1, g2⟩ := hx.others hee
    exact ⟨h2, s2, h3, h4, h5.trans g1, g2, h6⟩

end GS
