import Verif.Isolate
import Verif.Spec.Life
/-!
# Invariants of the life of a scheduler
-/

set_option linter.unusedSectionVars false

namespace GS
open Spec
variable {α κ W β : Type _} [DecidableEq α] [DecidableEq κ]
variable {U : Sys α κ W → Sys α κ W → Prop} {s0 s : Sys α κ W} {gs : List (Gen α κ W)}
variable {log : List (Option κ × Entry α κ W)} {i : Option κ}

theorem Spec.under_append (l m : List (Option κ × Entry α κ W)) :
    under i (l ++ m) = under i l ++ under i m := List.filterMap_append

theorem Spec.under_single (e : Option κ × Entry α κ W) :
    under i [e] = if e.1 = i then [e.2] else [] := by
  unfold under
  by_cases h : e.1 = i <;> simp [h]

/-- What the beginning of a run, failed or not, keeps under every id. -/
structure Mild (s s' : Sys α κ W) : Prop where
  nodes : s'.nodes = s.nodes
  queue : s'.queue = s.queue
  graph : s'.graph = s.graph
  stamps : s'.timestamps = s.timestamps
  list : ∀ i l, Dict.get? s.execList i = some l → Dict.get? s'.execList i = some l
  total : ∀ i f, Dict.get? s.countsTotal i = some f → ∃ f', Dict.get? s'.countsTotal i = some f' ∧
    ∀ t n, 2 < t.val → f' t n = f t n

theorem Mild.refl (s : Sys α κ W) : Mild s s :=
  ⟨rfl, rfl, rfl, rfl, fun _ _ h => h, fun _ f h => ⟨f, h, fun _ _ _ => rfl⟩⟩

theorem Mild.trans {s1 s2 s3 : Sys α κ W} (h : Mild s1 s2) (k : Mild s2 s3) : Mild s1 s3 :=
  ⟨k.nodes.trans h.nodes, k.queue.trans h.queue, k.graph.trans h.graph, k.stamps.trans h.stamps,
    fun i l hl => k.list i l (h.list i l hl), fun i f hf => by
      obtain ⟨f1, h1, h2⟩ := h.total i f hf
      obtain ⟨f2, h3, h4⟩ := k.total i f1 h1
      exact ⟨f2, h3, fun t n ht => (h4 t n ht).trans (h2 t n ht)⟩⟩

theorem Mild.ofClock (s : Sys α κ W) (d) : Mild s { s with clocks := d } :=
  ⟨rfl, rfl, rfl, rfl, fun _ _ h => h, fun _ f h => ⟨f, h, fun _ _ _ => rfl⟩⟩

theorem Mild.ofUseable (s : Sys α κ W) (d) : Mild s { s with countsUseable := d } :=
  ⟨rfl, rfl, rfl, rfl, fun _ _ h => h, fun _ f h => ⟨f, h, fun _ _ _ => rfl⟩⟩

theorem Mild.ofList (s : Sys α κ W) (d)
    (h : ∀ i l, Dict.get? s.execList i = some l → Dict.get? d i = some l) :
    Mild s { s with execList := d } :=
  ⟨rfl, rfl, rfl, rfl, h, fun _ f h => ⟨f, h, fun _ _ _ => rfl⟩⟩

theorem Mild.validate (s : Sys α κ W) : Mild s s.validateRunState.1 := by
  have : s.validateRunState.1.toView = s.toView := by
    unfold Sys.validateRunState
    split
    · rfl
    · exact Sys.validateConditions_view _ _
  exact ⟨by rw [this], by rw [this], by rw [this], by rw [this], fun i l hl => by rw [this]; exact hl,
    fun i f hf => ⟨f, by rw [this]; exact hf, fun _ _ _ => rfl⟩⟩

theorem Inited.same {id : Option κ} {base : Option (Option κ)} {zero : β}
    {d d' : Dict (Option κ) β} (h : Inited id base zero d d') {i : Option κ} {v : β}
    (hv : Dict.get? d i = some v) : Dict.get? d' i = some v := by
  by_cases hi : i = id
  · subst hi
    obtain ⟨f, h1, h2, _⟩ := h.value
    rw [h1, h2 v hv]
  · rw [h.other i hi, hv]

theorem Mild.initCounts {s s' : Sys α κ W} {j base r} (h : s.initCounts j base = (s', r)) :
    Mild s s' := by
  unfold Sys.initCounts at h
  split at h
  · cases h; exact .refl _
  · rename_i s1 h1
    obtain ⟨d1, rfl, i1⟩ := Sys.initTotal_ok h1
    have m1 : Mild s { s with countsTotal := d1 } :=
      ⟨rfl, rfl, rfl, rfl, fun _ _ h => h, fun i f hf => ⟨f, i1.same hf, fun _ _ _ => rfl⟩⟩
    split at h
    · cases h; exact m1
    · rename_i s2 h2
      obtain ⟨d2, rfl, i2⟩ := Sys.initUseable_ok h2
      have m2 := m1.trans (Mild.ofUseable _ d2)
      split at h
      · cases h; exact m2
      · rename_i s3 h3
        obtain ⟨d3, rfl, i3⟩ := Sys.initList_ok h3
        have m3 := m2.trans (Mild.ofList _ d3 fun i l hl => i3.same hl)
        split at h
        · cases h; exact m3
        · rename_i s4 h4
          obtain ⟨d4, rfl, i4⟩ := Sys.initClock_ok h4
          cases h; exact m3.trans (Mild.ofClock _ d4)

theorem Mild.start {a : RunArgs α κ W} {s s' : Sys α κ W} {r} (h : s.start a = (s', r)) :
    Mild s s' := by
  have m1 := Mild.validate s
  unfold Sys.start at h
  rcases e1 : s.validateRunState with ⟨s1, _ | e⟩
  · rw [e1] at h m1
    dsimp only at h m1
    obtain ⟨d, hd, _⟩ := Sys.getClock_frame s1 a.id
    have m2 : Mild s (s1.getClock a.id) := by rw [hd]; exact m1.trans (Mild.ofClock _ d)
    rcases e2 : (s1.getClock a.id).setupAbsolute a with ⟨s2, e | b⟩
    · rw [e2] at h
      obtain ⟨rfl, _⟩ := Prod.mk.inj h
      unfold Sys.setupAbsolute at e2
      dsimp only at e2
      split at e2
      · cases e2
      · split at e2
        · cases e2; exact m2
        · cases e2
    · rw [e2] at h
      dsimp only at h
      obtain ⟨ab, ai, ae, hs2⟩ := Sys.setupAbsolute_ok e2
      have m3 : Mild s s2 := by rw [hs2]; exact m2.trans (Mild.ofClock _ _)
      rcases e3 : s2.initCounts a.id a.base with ⟨s3, _ | e⟩
      · rw [e3] at h
        have m4 := (m3.trans (Mild.initCounts e3)).trans
          (Mild.ofUseable s3 (Dict.set s3.countsUseable a.id fun _ _ => 0))
        dsimp only at h
        split at h
        · cases h; exact m4
        · rename_i s4 hr
          cases h
          refine m4.trans ?_
          unfold Sys.resetTotal at hr
          split at hr
          · cases hr
          · rename_i f hf
            cases hr
            refine ⟨rfl, rfl, rfl, rfl, fun _ _ h => h, fun i g hg => ?_⟩
            by_cases hi : i = a.id
            · subst hi
              refine ⟨_, Dict.get?_set_self _ _ _, fun t n ht => ?_⟩
              have : ¬ t.val ≤ TimeScale.environment_state_update.val := by
                have e : TimeScale.environment_state_update.val = 2 := rfl
                omega
              have hgf : g = f := Option.some.inj (hg.symm.trans hf)
              subst hgf
              exact if_neg this
            · exact ⟨g, (Dict.get?_set_ne hi).trans hg, fun _ _ _ => rfl⟩
      · rw [e3] at h
        obtain ⟨rfl, _⟩ := Prod.mk.inj h
        exact m3.trans (Mild.initCounts e3)
  · rw [e1] at h m1
    obtain ⟨rfl, _⟩ := Prod.mk.inj h
    exact m1

/-! ## Execution lists -/

variable {a : RunArgs α κ W} {abs : Bool} {s' : Sys α κ W} {pc pc' : PC α} {ev : Option (Event α)}

/-- What a step appends to the execution list. -/
theorem StepR.list (h : StepR a abs s pc s' pc' ev) {l}
    (hl : Dict.get? s.execList a.id = some l)
    (ht : abs = false ∨ (Dict.get? s.timestamps a.id).isSome) :
    Dict.get? s'.execList a.id = some (l ++ (ev.bind Event.yield?).toList) := by
  have key : ∀ {l' x} {s : Sys α κ W}, Dict.get? s.execList a.id = some l →
      Dict.get? s.execList a.id = some l' →
      Dict.get? (Dict.set s.execList a.id (l' ++ [x])) a.id = some (l ++ [x]) := by
    intro l' x s h1 h2
    rw [h1] at h2
    cases h2
    exact Dict.get?_set_self _ _ _
  cases h with
  | emptyYield hl' ha hx => exact key hl hx
  | yield h1 h2 h3 h4 hx => exact key hl hx
  | yieldAbs h1 h2 h3 hx h4 => exact key hl hx
  | fails hp hfr hev =>
    have : (ev.bind Event.yield?).toList = [] := by
      rcases hev with rfl | ⟨_, rfl, _⟩ <;> rfl
    rw [this, List.append_nil]
    cases hfr with
    | store st hst => exact hl
    | clock st c hst => exact hl
    | list l' x ha hx hts =>
      rcases ht with ht | ht
      · rw [ht] at ha; cases ha
      · rw [hts] at ht; cases ht
  | _ => rw [show (Option.bind _ Event.yield?).toList = [] from rfl, List.append_nil]; exact hl

/-- The effect of a step on the counters of units coarser than a run. -/
theorem StepR.coarse (h : StepR a abs s pc s' pc' ev) {f}
    (hf : Dict.get? s.countsTotal a.id = some f) :
    ∃ f', Dict.get? s'.countsTotal a.id = some f' ∧ ∀ t n, 2 < t.val →
      f' t n = f t n + (ev.bind Event.add?).toList.count n := by
  cases h with
  | pass hg hf' =>
    refine ⟨_, Dict.get?_set_self _ _ _, fun t n ht => ?_⟩
    rw [hf] at hf'
    cases hf'
    have e : TimeScale.pass.val = 1 := rfl
    exact resetF_gt (by omega)
  | add h1 h2 h3 h4 hf' h6 h7 =>
    rw [hf] at hf'
    cases hf'
    refine ⟨_, Dict.get?_set_self _ _ _, fun t n ht => ?_⟩
    rename_i m _ _ _ _
    show bumpF m f t n = f t n + [m].count n
    unfold bumpF
    rw [List.count_singleton]
    by_cases hm : n = m
    · subst hm; simp
    · have : (m == n) = false := by simp; exact fun h => hm h.symm
      rw [if_neg hm, this]; rfl
  | fails hp hfr hev =>
    have : (ev.bind Event.add?).toList = [] := by
      rcases hev with rfl | ⟨_, rfl, _⟩ <;> rfl
    rw [this]
    cases hfr <;> exact ⟨f, hf, fun _ _ _ => rfl⟩
  | _ => exact ⟨f, hf, fun _ _ _ => rfl⟩

/-- No step removes or adds an entry of `execution_timestamps`. -/
theorem StepR.stampKeys (h : StepR a abs s pc s' pc' ev) (i : Option κ) :
    (Dict.get? s'.timestamps i).isSome = (Dict.get? s.timestamps i).isSome := by
  cases h with
  | yieldAbs h1 h2 h3 hx h4 =>
    show (Dict.get? (Dict.set s.timestamps a.id _) i).isSome = _
    rw [Dict.get?_set]
    by_cases hi : i = a.id
    · subst hi; simp [h4]
    · simp [Ne.symm hi]
  | fails hp hfr hev => cases hfr <;> rfl
  | _ => rfl

/-- Execution lists over the life of a scheduler. -/
theorem Spec.Life.list (hl : Life U s0 log s gs) (hU : Keeps U fun s => Dict.get? s.execList i)
    (hT : Keeps U fun s => (Dict.get? s.timestamps i).isSome) {l0}
    (hl0 : Dict.get? s0.execList i = some l0)
    (ht : (Dict.get? s0.timestamps i).isSome ∨ ∀ g ∈ gs, g.args.id = i → g.abs = false) :
    Dict.get? s.execList i = some (l0 ++ yields (under i log)) ∧
      (Dict.get? s.timestamps i).isSome = (Dict.get? s0.timestamps i).isSome := by
  induction hl with
  | init => exact ⟨by simpa [under, yields] using hl0, rfl⟩
  | start hl hs ih =>
    obtain ⟨h1, h2⟩ := ih (ht.imp_right fun ht g hg => ht g (List.mem_append_left _ hg))
    exact ⟨(Mild.start hs).list _ _ h1, by rw [(Mild.start hs).stamps]; exact h2⟩
  | startFails hl hs ih =>
    obtain ⟨h1, h2⟩ := ih ht
    exact ⟨(Mild.start hs).list _ _ h1, by rw [(Mild.start hs).stamps]; exact h2⟩
  | @step log s s' gs k g pc' ev hl hk hs ih =>
    have hg : { g with pc := pc' } ∈ gs.set k { g with pc := pc' } := by
      have hlt : k < gs.length := (List.getElem?_eq_some_iff.1 hk).1
      exact List.mem_of_getElem? (i := k) (by rw [List.getElem?_set_self hlt])
    have hga : (∀ x ∈ gs.set k { g with pc := pc' }, x.args.id = i → x.abs = false) →
        g.args.id = i → g.abs = false := fun ht h => ht { g with pc := pc' } hg h
    have ht' : (Dict.get? s0.timestamps i).isSome ∨ ∀ g ∈ gs, g.args.id = i → g.abs = false := by
      refine ht.imp_right fun ht x hx hxi => ?_
      obtain ⟨j, hj⟩ := List.getElem?_of_mem hx
      by_cases hjk : j = k
      · subst hjk
        rw [hk] at hj
        cases hj
        exact hga ht hxi
      · have : x ∈ gs.set k { g with pc := pc' } := by
          apply List.mem_of_getElem? (i := j)
          rw [List.getElem?_set_ne (Ne.symm hjk)]
          exact hj
        exact ht x this hxi
    obtain ⟨h1, h2⟩ := ih ht'
    have hst := Sys.step_stepR hs
    refine ⟨?_, (hst.stampKeys i).trans h2⟩
    rw [under_append]
    by_cases hi : g.args.id = i
    · subst hi
      have h3 := hst.list h1 (by
        rcases ht with ht | ht
        · right; rw [h2]; exact ht
        · left; exact hga ht rfl)
      rw [h3]
      cases ev with
      | none => simp [under]
      | some e =>
        simp only [Option.toList, List.map_cons, List.map_nil, under_single, if_true, yields_append,
          yields_single, List.append_assoc]
        rfl
    · rw [hst.frame.list i (Ne.symm hi), h1]
      have : under i (ev.toList.map fun x => (g.args.id, (⟨s, x, s'⟩ : Entry α κ W))) = [] := by
        cases ev with
        | none => rfl
        | some e =>
          simp only [Option.toList, List.map_cons, List.map_nil, under_single, if_neg hi]
      rw [this, List.append_nil]
  | user hl hu ih =>
    obtain ⟨h1, h2⟩ := ih ht
    exact ⟨(hU _ _ hu).trans h1, (hT _ _ hu).trans h2⟩

/-- Counters of units coarser than a run over the life of a scheduler. -/
theorem Spec.Life.coarse (hl : Life U s0 log s gs)
    (hU : Keeps U fun s => Dict.get? s.countsTotal i) {f0}
    (hf0 : Dict.get? s0.countsTotal i = some f0) :
    ∃ f, Dict.get? s.countsTotal i = some f ∧ ∀ t n, 2 < t.val →
      f t n = f0 t n + (selections (under i log)).count n := by
  induction hl with
  | init => exact ⟨f0, hf0, fun _ _ _ => rfl⟩
  | start hl hs ih =>
    obtain ⟨f, h1, h2⟩ := ih
    obtain ⟨f', h3, h4⟩ := (Mild.start hs).total _ _ h1
    exact ⟨f', h3, fun t n ht => (h4 t n ht).trans (h2 t n ht)⟩
  | startFails hl hs ih =>
    obtain ⟨f, h1, h2⟩ := ih
    obtain ⟨f', h3, h4⟩ := (Mild.start hs).total _ _ h1
    exact ⟨f', h3, fun t n ht => (h4 t n ht).trans (h2 t n ht)⟩
  | @step log s s' gs k g pc' ev hl hk hs ih =>
    obtain ⟨f, h1, h2⟩ := ih
    have hst := Sys.step_stepR hs
    rw [under_append]
    by_cases hi : g.args.id = i
    · subst hi
      obtain ⟨f', h3, h4⟩ := hst.coarse h1
      refine ⟨f', h3, fun t n ht => ?_⟩
      rw [h4 t n ht, h2 t n ht]
      cases ev with
      | none => simp [under, selections]
      | some e =>
        simp only [Option.toList, List.map_cons, List.map_nil, under_single, if_true,
          selections_append, selections_single, List.count_append, Option.bind]
        omega
    · refine ⟨f, (hst.frame.total i (Ne.symm hi)).trans h1, fun t n ht => ?_⟩
      have : under i (ev.toList.map fun x => (g.args.id, (⟨s, x, s'⟩ : Entry α κ W))) = [] := by
        cases ev with
        | none => rfl
        | some e =>
          simp only [Option.toList, List.map_cons, List.map_nil, under_single, if_neg hi]
      rw [this, List.append_nil]
      exact h2 t n ht
  | user hl hu ih =>
    obtain ⟨f, h1, h2⟩ := ih
    exact ⟨f, (hU _ _ hu).trans h1, h2⟩

/-! ## Which ids have counters -/

theorem Spec.Synced.known (h : Synced s) (hi : (Dict.get? s.countsTotal i).isSome) : Known i s :=
  ⟨hi, by rw [(h i).1]; exact hi, by rw [(h i).2]; exact hi⟩

theorem Sys.new_synced (g : Graph α) (mode : Mode) (id : Option κ) (unit : Rat) (w : World α κ W) :
    Synced (Sys.new g mode id unit w) := by
  intro i
  simp only [Sys.new, Dict.get?]
  by_cases h : id = i <;> simp [h]

theorem Dict.isSome_set {κ' : Type _} [DecidableEq κ'] (d : Dict κ' β) (k : κ') (v : β) (i : κ') :
    (Dict.get? (Dict.set d k v) i).isSome = (decide (k = i) || (Dict.get? d i).isSome) := by
  rw [Dict.get?_set]
  by_cases h : k = i <;> simp [h]

/-- With equal keys, initialising the counters of an id either succeeds for all dicts or
fails before anything is changed. -/
theorem Sys.initCounts_all (hs : Synced s) {base : Option (Option κ)}
    (hc : (Dict.get? s.clocks i).isSome) :
    (∃ s', s.initCounts i base = (s', none) ∧ Synced s' ∧ Known i s') ∨
    (s.initCounts i base = (s, some .schedulerError) ∧ Dict.get? s.countsTotal i = none ∧
      ∃ b, base = some b ∧ Dict.get? s.countsTotal b = none) := by
  obtain ⟨c, hc⟩ := Option.isSome_iff_exists.1 hc
  cases hf : Dict.get? s.countsTotal i with
  | some f =>
    left
    have hk := hs.known (i := i) (by rw [hf]; rfl)
    obtain ⟨u, hu⟩ := Option.isSome_iff_exists.1 hk.useable
    obtain ⟨l, hl⟩ := Option.isSome_iff_exists.1 hk.list
    refine ⟨s, ?_, hs, hk⟩
    simp only [initCounts, initTotal, initUseable, initList, initClock, hf, hu, hl, hc]
  | none =>
    have hu : Dict.get? s.countsUseable i = none := by
      have := (hs i).1
      rw [hf] at this
      simpa using this
    have hl : Dict.get? s.execList i = none := by
      have := (hs i).2
      rw [hf] at this
      simpa using this
    have hsync : ∀ f u l, Synced ({ s with
        countsTotal := Dict.set s.countsTotal i f, countsUseable := Dict.set s.countsUseable i u,
        execList := Dict.set s.execList i l } : Sys α κ W) := by
      intro f u l j
      simp only [Dict.isSome_set]
      rw [(hs j).1, (hs j).2]
      exact ⟨rfl, rfl⟩
    have hknown : ∀ f u l, Known i ({ s with
        countsTotal := Dict.set s.countsTotal i f, countsUseable := Dict.set s.countsUseable i u,
        execList := Dict.set s.execList i l } : Sys α κ W) := by
      intro f u l
      refine ⟨?_, ?_, ?_⟩ <;> simp [Dict.isSome_set]
    cases base with
    | none =>
      left
      refine ⟨_, ?_, hsync (fun _ _ => 0) (fun _ _ => 0) [], hknown (fun _ _ => 0) (fun _ _ => 0) []⟩
      simp only [initCounts, initTotal, initUseable, initList, initClock, hf, hu, hl, hc]
    | some b =>
      cases hb : Dict.get? s.countsTotal b with
      | none =>
        right
        refine ⟨?_, rfl, b, rfl, hb⟩
        simp only [initCounts, initTotal, hf, hb]
      | some f =>
        left
        have hk := hs.known (i := b) (by rw [hb]; rfl)
        obtain ⟨u, hu'⟩ := Option.isSome_iff_exists.1 hk.useable
        obtain ⟨l, hl'⟩ := Option.isSome_iff_exists.1 hk.list
        refine ⟨_, ?_, hsync f u l, hknown f u l⟩
        simp only [initCounts, initTotal, initUseable, initList, initClock, hf, hu, hl, hc, hb, hu', hl']

/-- How beginning a run can end, and what it then did to counters and histories. -/
theorem Sys.start_synced (hs : Synced s) {r} (h : s.start a = (s', r)) :
    Synced s' ∧ ((∃ b, r = .ok b ∧ Known a.id s') ∨
      (s'.countsTotal = s.countsTotal ∧ s'.countsUseable = s.countsUseable ∧
        s'.execList = s.execList)) := by
  have hv : s.validateRunState.1.toView = s.toView := by
    unfold Sys.validateRunState
    split
    · rfl
    · exact Sys.validateConditions_view _ _
  have hsv : ∀ {t : Sys α κ W}, t.countsTotal = s.countsTotal → t.countsUseable = s.countsUseable →
      t.execList = s.execList → Synced t := by
    intro t h1 h2 h3 j
    rw [h1, h2, h3]; exact hs j
  unfold Sys.start at h
  rcases e1 : s.validateRunState with ⟨s1, _ | e⟩
  · rw [e1] at h hv
    dsimp only at h hv
    obtain ⟨d, hd, _⟩ := Sys.getClock_frame s1 a.id
    rcases e2 : (s1.getClock a.id).setupAbsolute a with ⟨s2, e | b⟩
    · rw [e2] at h
      obtain ⟨rfl, _⟩ := Prod.mk.inj h
      have : s2 = s1.getClock a.id := by
        unfold Sys.setupAbsolute at e2
        dsimp only at e2
        split at e2
        · cases e2
        · split at e2
          · cases e2; rfl
          · cases e2
      rw [this, hd]
      have t1 : s1.countsTotal = s.countsTotal := by rw [hv]
      have t2 : s1.countsUseable = s.countsUseable := by rw [hv]
      have t3 : s1.execList = s.execList := by rw [hv]
      exact ⟨hsv t1 t2 t3, .inr ⟨t1, t2, t3⟩⟩
    · rw [e2] at h
      dsimp only at h
      obtain ⟨ab, ai, ae, hs2⟩ := Sys.setupAbsolute_ok e2
      have t1 : s2.countsTotal = s.countsTotal := by rw [hs2, hd, ← hv]; rfl
      have t2 : s2.countsUseable = s.countsUseable := by rw [hs2, hd, ← hv]; rfl
      have t3 : s2.execList = s.execList := by rw [hs2, hd, ← hv]; rfl
      have hcl : (Dict.get? s2.clocks a.id).isSome := by
        rw [hs2]
        show (Dict.get? (Dict.set _ _ _) _).isSome
        rw [Dict.get?_set_self]; rfl
      rcases Sys.initCounts_all (hsv t1 t2 t3) (base := a.base) hcl with
        ⟨s3, e3, hs3, hk3⟩ | ⟨e3, _⟩
      · rw [e3] at h
        dsimp only at h
        obtain ⟨f, hf⟩ := Option.isSome_iff_exists.1 hk3.total
        have hf' : Dict.get? (s3.resetUseable a.id).countsTotal a.id = some f := hf
        simp only [resetTotal, hf'] at h
        obtain ⟨rfl, rfl⟩ := Prod.mk.inj h
        have hsync : ∀ f', Synced ((s3.resetUseable a.id).putTotal a.id f') := by
          intro f' j
          simp only [resetUseable, putTotal, Dict.isSome_set]
          rw [(hs3 j).1, (hs3 j).2]
          by_cases hj : a.id = j
          · subst hj; simp [hk3.total]
          · simp [hj]
        exact ⟨hsync _, .inl ⟨b, rfl, (hsync _).known (by simp [putTotal, Dict.isSome_set])⟩⟩
      · rw [e3] at h
        obtain ⟨rfl, _⟩ := Prod.mk.inj h
        exact ⟨hsv t1 t2 t3, .inr ⟨t1, t2, t3⟩⟩
  · rw [e1] at h hv
    obtain ⟨rfl, _⟩ := Prod.mk.inj h
    dsimp only at hv
    have t1 : s1.countsTotal = s.countsTotal := by rw [hv]
    have t2 : s1.countsUseable = s.countsUseable := by rw [hv]
    have t3 : s1.execList = s.execList := by rw [hv]
    exact ⟨hsv t1 t2 t3, .inr ⟨t1, t2, t3⟩⟩

/-- The absolute-time unit can be computed if there is a consideration set. -/
theorem Sys.absoluteUnit_total (hq : s.queue ≠ []) (cs : List (Cond α κ W)) :
    ∃ u, s.absoluteUnit cs = .ok u := by
  have hl : s.queue.length ≠ 0 := fun h => hq (List.eq_nil_of_length_eq_zero h)
  unfold Sys.absoluteUnit
  dsimp only
  generalize hi : (cs.flatMap fun c =>
    c.intervals ++ (if s.mode = Mode.exactTime then c.fixedPoints else [])) = is
  by_cases h0 : is = []
  · exact ⟨_, if_pos h0⟩
  · rw [if_neg h0]
    cases hm : s.mode with
    | standard => exact ⟨_, if_neg (fun h => hl (by simpa using h))⟩
    | exactTime => exact ⟨_, if_neg (show ¬ (1 : Rat) = 0 by decide)⟩

/-- The state with other counters. -/
def putCounts (d : Dict (Option κ) (TimeScale → α → Nat)) (e : Dict (Option κ) (α → α → Nat))
    (s : Sys α κ W) : Sys α κ W := { s with countsTotal := d, countsUseable := e }

theorem validateConditions_putCounts (d e) : ∀ (ns : List α) (s : Sys α κ W),
    Sys.validateConditions ns (putCounts d e s) =
      (putCounts d e (Sys.validateConditions ns s).1, (Sys.validateConditions ns s).2)
  | [], _ => rfl
  | n :: ns, s => by
    unfold Sys.validateConditions
    have h1 : (putCounts d e s).conds = s.conds := rfl
    have h2 : (putCounts d e s).graph = s.graph := rfl
    rw [h1, h2]
    cases Dict.get? s.conds n with
    | some c => exact validateConditions_putCounts d e ns s
    | none =>
      cases Dict.get? s.graph n with
      | none => rfl
      | some deps =>
        let s1 := (s.alloc (deps.length + 1)).addBasic n (Sys.defaultCond s.store.fresh deps)
        exact validateConditions_putCounts d e ns s1

theorem validateRunState_putCounts (d e) (s : Sys α κ W) :
    (putCounts d e s).validateRunState =
      (putCounts d e s.validateRunState.1, s.validateRunState.2) := by
  unfold Sys.validateRunState
  have h2 : (putCounts d e s).graph = s.graph := rfl
  rw [h2]
  cases toposort s.graph with
  | error e => rfl
  | ok q => exact validateConditions_putCounts d e _ s

theorem getClock_putCounts (d e) (s : Sys α κ W) (i : Option κ) :
    (putCounts d e s).getClock i = putCounts d e (s.getClock i) := by
  unfold Sys.getClock
  have h2 : (putCounts d e s).clocks = s.clocks := rfl
  rw [h2]
  cases Dict.get? s.clocks i <;> rfl

theorem setupAbsolute_putCounts (d e) (s : Sys α κ W) (a : RunArgs α κ W) :
    (putCounts d e s).setupAbsolute a =
      (putCounts d e (s.setupAbsolute a).1, (s.setupAbsolute a).2) := by
  unfold Sys.setupAbsolute
  have h1 : (putCounts d e s).absoluteConds a = s.absoluteConds a := rfl
  have h2 : ∀ cs, (putCounts d e s).absoluteUnit cs = s.absoluteUnit cs := fun _ => rfl
  have h3 : (putCounts d e s).clock a.id = s.clock a.id := rfl
  dsimp only
  rw [h1, h2, h3]
  by_cases hc : s.absoluteConds a = []
  · rw [if_pos hc, if_pos hc]; rfl
  · rw [if_neg hc, if_neg hc]
    cases s.absoluteUnit (s.absoluteConds a) <;> rfl

theorem resetF_congr {f f0 : TimeScale → α → Nat} (hf : ∀ t n, 2 < t.val → f t n = f0 t n) :
    (fun (t : TimeScale) n => if t.val ≤ TimeScale.environment_state_update.val then 0 else f t n) =
    (fun (t : TimeScale) n => if t.val ≤ TimeScale.environment_state_update.val then 0 else f0 t n) := by
  funext t n
  by_cases ht : t.val ≤ TimeScale.environment_state_update.val
  · rw [if_pos ht, if_pos ht]
  · rw [if_neg ht, if_neg ht]
    exact hf t n (by have e : TimeScale.environment_state_update.val = 2 := rfl; omega)

/-- The beginning of a run does not depend on counters it resets. -/
theorem start_putCounts (hk : Known a.id s) {f0 f u}
    (hf0 : Dict.get? s.countsTotal a.id = some f0) (hf : ∀ t n, 2 < t.val → f t n = f0 t n) :
    (∃ s', (putCounts (Dict.set s.countsTotal a.id f) (Dict.set s.countsUseable a.id u) s).start a =
      (s', .ok abs) ∧ s.start a = (s', .ok abs)) ∨
    (∃ b s' s'', b ≠ abs ∧ (putCounts (Dict.set s.countsTotal a.id f)
      (Dict.set s.countsUseable a.id u) s).start a = (s', .ok b) ∧ s.start a = (s'', .ok b)) ∨
    ∃ e s' s'', (putCounts (Dict.set s.countsTotal a.id f) (Dict.set s.countsUseable a.id u) s).start a =
      (s', .error e) ∧ s.start a = (s'', .error e) := by
  have hv : s.validateRunState.1.toView = s.toView := by
    unfold Sys.validateRunState
    split
    · rfl
    · exact Sys.validateConditions_view _ _
  obtain ⟨u0, hu0⟩ := Option.isSome_iff_exists.1 hk.useable
  obtain ⟨l0, hl0⟩ := Option.isSome_iff_exists.1 hk.list
  unfold Sys.start
  rw [validateRunState_putCounts]
  rcases e1 : s.validateRunState with ⟨s1, _ | e⟩
  · rw [e1] at hv
    dsimp only at hv ⊢
    rw [getClock_putCounts, setupAbsolute_putCounts]
    rcases e2 : (s1.getClock a.id).setupAbsolute a with ⟨s2, e | ab⟩
    · exact .inr (.inr ⟨e, _, _, rfl, rfl⟩)
    · dsimp only
      obtain ⟨_, _, _, hs2⟩ := Sys.setupAbsolute_ok e2
      obtain ⟨d, hd, _⟩ := Sys.getClock_frame s1 a.id
      have t1 : s2.countsTotal = s.countsTotal := by
        rw [hs2, hd]; show s1.countsTotal = _; rw [hv]
      have t2 : s2.countsUseable = s.countsUseable := by
        rw [hs2, hd]; show s1.countsUseable = _; rw [hv]
      have t3 : s2.execList = s.execList := by
        rw [hs2, hd]; show s1.execList = _; rw [hv]
      obtain ⟨c, t4⟩ : ∃ c, Dict.get? s2.clocks a.id = some c := by
        refine Option.isSome_iff_exists.1 ?_
        rw [hs2]
        show (Dict.get? (Dict.set _ _ _) _).isSome
        rw [Dict.get?_set_self]; rfl
      have g1 : s2.initCounts a.id a.base = (s2, none) := by
        simp only [Sys.initCounts, Sys.initTotal, Sys.initUseable, Sys.initList, Sys.initClock,
          t1, t2, t3, t4, hf0, hu0, hl0]
      have g2 : ∀ d1 d2, Dict.get? d1 a.id = some f → Dict.get? d2 a.id = some u →
          (putCounts d1 d2 s2).initCounts a.id a.base = (putCounts d1 d2 s2, none) := by
        intro d1 d2 h1 h2
        simp only [Sys.initCounts, Sys.initTotal, Sys.initUseable, Sys.initList, Sys.initClock,
          putCounts, t3, t4, h1, h2, hl0]
      rw [g1, g2 _ _ (Dict.get?_set_self _ _ _) (Dict.get?_set_self _ _ _)]
      dsimp only
      have r1 : (s2.resetUseable a.id).resetTotal .environment_state_update a.id = .ok
          ((s2.resetUseable a.id).putTotal a.id (resetF .environment_state_update f0)) := by
        unfold Sys.resetTotal
        have : Dict.get? (s2.resetUseable a.id).countsTotal a.id = some f0 := by
          show Dict.get? s2.countsTotal a.id = _
          rw [t1, hf0]
        rw [this]
        rfl
      have r2 : ((putCounts (Dict.set s.countsTotal a.id f) (Dict.set s.countsUseable a.id u)
          s2).resetUseable a.id).resetTotal .environment_state_update a.id = .ok
          ((s2.resetUseable a.id).putTotal a.id (resetF .environment_state_update f0)) := by
        unfold Sys.resetTotal
        have : Dict.get? ((putCounts (Dict.set s.countsTotal a.id f)
            (Dict.set s.countsUseable a.id u) s2).resetUseable a.id).countsTotal a.id = some f :=
          Dict.get?_set_self _ _ _
        rw [this]
        simp only [Sys.resetUseable, putCounts, Dict.set_set, t1, t2]
        rw [resetF_congr hf]
        rfl
      rw [r1, r2]
      dsimp only
      by_cases hb : ab = abs
      · subst hb; exact .inl ⟨_, rfl, rfl⟩
      · exact .inr (.inl ⟨ab, _, _, hb, rfl, rfl⟩)
  · exact .inr (.inr ⟨e, _, _, rfl, rfl⟩)

/-- A step keeps the keys. -/
theorem StepR.synced (h : StepR a abs s pc s' pc' ev) (hs : Synced s) : Synced s' := by
  have key : ∀ {f : TimeScale → α → Nat} {j : Option κ}, Dict.get? s.countsTotal a.id = some f →
      (a.id = j → (Dict.get? s.countsTotal j).isSome = true) := by
    intro f j hf hj; rw [← hj, hf]; rfl
  cases h with
  | pass hg hf =>
    intro j
    simp only [Sys.putStore, Sys.putTotal, Dict.isSome_set]
    by_cases hj : a.id = j
    · have := key hf hj
      simp [hj, (hs j).1, (hs j).2, this]
    · simpa [hj] using hs j
  | emptyYield h1 h2 hx =>
    intro j
    simp only [Sys.putStore, Sys.putList, Dict.isSome_set]
    by_cases hj : a.id = j
    · subst hj
      have : (Dict.get? s.countsTotal a.id).isSome := by rw [← (hs a.id).2, hx]; rfl
      simp [(hs a.id).1, this]
    · simpa [hj] using hs j
  | yield h1 h2 h3 h4 hx =>
    intro j
    simp only [Sys.putList, Dict.isSome_set]
    by_cases hj : a.id = j
    · subst hj
      have : (Dict.get? s.countsTotal a.id).isSome := by rw [← (hs a.id).2, hx]; rfl
      simp [(hs a.id).1, this]
    · simpa [hj] using hs j
  | yieldAbs h1 h2 h3 hx h4 =>
    intro j
    simp only [Sys.putList, Sys.putStamps, Dict.isSome_set]
    by_cases hj : a.id = j
    · subst hj
      have : (Dict.get? s.countsTotal a.id).isSome := by rw [← (hs a.id).2, hx]; rfl
      simp [(hs a.id).1, this]
    · simpa [hj] using hs j
  | add h1 h2 h3 h4 hf hu h7 =>
    intro j
    simp only [Sys.putStore, Sys.putTotal, Sys.putUseable, Dict.isSome_set]
    rw [(hs j).1, (hs j).2]
    by_cases hj : a.id = j
    · have := key hf hj
      simp [hj, this]
    · simp [hj]
  | fails hp hfr hev =>
    cases hfr with
    | store => exact hs
    | clock => exact hs
    | list l x ha hx ht =>
      intro j
      simp only [Sys.putList, Dict.isSome_set]
      by_cases hj : a.id = j
      · subst hj
        have : (Dict.get? s.countsTotal a.id).isSome := by rw [← (hs a.id).2, hx]; rfl
        simp [(hs a.id).1, this]
      · simpa [hj] using hs j
  | _ => exact hs

/-- Over the life of a scheduler the three dicts keep having the same keys. -/
theorem Spec.Life.synced (hl : Life U s0 log s gs) (hU : ∀ s s', U s s' → Synced s → Synced s')
    (hs : Synced s0) : Synced s := by
  induction hl with
  | init => exact hs
  | start hl h ih => exact (Sys.start_synced ih h).1
  | startFails hl h ih => exact (Sys.start_synced ih h).1
  | step hl hk h ih => exact (Sys.step_stepR h).synced ih
  | user hl hu ih => exact hU _ _ hu ih

end GS
