import Verif.ReferenceSat
/-!
# The reference scheduler: described schedulers
-/

set_option linter.unusedSectionVars false

namespace GS
open Spec TimeScale
variable {α κ W : Type _} [DecidableEq α] [DecidableEq κ]
variable {w : List (List α) → World α κ W} {a : RunArgs α κ W} {s0 s t : Sys α κ W}
variable {h : History α κ W} {pc : PC α} {runs : List (List (List (List α)))}
variable {ar : Around α κ W}

/-- Waiting for calls of other nodes. -/
theorem Spec.WaitsFor.described {st : Store α κ} {n : α} {c : Cond α κ W} {l : List (α × Nat)}
    (hw : WaitsFor st n c l) (hl : ∀ x ∈ l, x.1 ≠ n) :
    Described st (some n) c ∧ ∀ (ar : Around α κ W) (p : Past α),
      holds ar (some n) p c = decide (∀ x ∈ l, x.2 ≤ p.callsSince n x.1) := by
  induction hw with
  | always => exact ⟨.leaf trivial (fun e => e.elim), fun _ _ => by simp [holds, holdsLeaf]⟩
  | every o d k hk ho =>
    refine ⟨.leaf rfl (fun _ => ho), fun _ _ => ?_⟩
    simp [holds, holdsLeaf]
  | allNil => exact ⟨.all (by simp), fun _ _ => by simp [holds, holdsAll]⟩
  | allCons o c cs l m hc hcs ih1 ih2 =>
    obtain ⟨h1, h2⟩ := ih1 fun x hx => hl x (List.mem_append_left _ hx)
    obtain ⟨h3, h4⟩ := ih2 fun x hx => hl x (List.mem_append_right _ hx)
    refine ⟨.all ?_, fun ar p => ?_⟩
    · intro c' hc'
      rcases List.mem_cons.1 hc' with rfl | hc'
      · exact h1
      · cases h3 with
        | all h3 => exact h3 c' hc'
    · have h4' := h4 ar p
      simp only [holds] at h4'
      simp only [holds, holdsAll]
      rw [h2, h4', ← Bool.decide_and]
      refine decide_eq_decide.2 ?_
      constructor
      · rintro ⟨k1, k2⟩ x hx
        rcases List.mem_append.1 hx with hx | hx
        · exact k1 x hx
        · exact k2 x hx
      · intro k
        exact ⟨fun x hx => k x (List.mem_append_left _ hx), fun x hx => k x (List.mem_append_right _ hx)⟩

theorem Spec.Described.ext {st st' : Store α κ} {own : Option α} {c : Cond α κ W}
    (hd : Described st own c)
    (hx : ∀ o, o < st.fresh → o < st'.fresh ∧ st'.owner o = st.owner o) : Described st' own c := by
  induction hd with
  | leaf hk ho =>
    refine .leaf hk fun e => ?_
    obtain ⟨h1, h2⟩ := ho e
    exact ⟨(hx _ h1).1, (hx _ h1).2.trans h2⟩
  | whileNot hf => exact .whileNot hf
  | all _ ih => exact .all ih
  | any _ ih => exact .any ih
  | not _ ih => exact .not ih

/-- The scheduler `s` is described by the rules of `s0`. -/
structure LikeAt (s0 s : Sys α κ W) : Prop where
  nodes : s.nodes = s0.nodes
  graph : s.graph = s0.graph
  queue : s.queue = s0.queue
  conds : ∀ n ∈ s0.queue.flatten, n ∈ s0.nodes ∧
    ((∃ c, Dict.get? s.conds n = some c ∧ Described s.store (some n) c ∧
        (∀ ar p, holds ar (some n) p c = rule s0 ar n p) ∧
        ∀ o c k, Dict.get? s0.conds n ≠ some (.nwhen o c k)) ∨
      (∃ o c k, Dict.get? s.conds n = some (.nwhen o c k) ∧ Described s.store (some n) c ∧
        o < s.store.fresh ∧ Dict.get? s0.conds n = some (.nwhen o c k) ∧
        ∀ m c' k', Dict.get? s0.conds m = some (.nwhen o c' k') → m = n) ∨
      (Dict.get? s.conds n = none ∧ Dict.get? s0.conds n = none ∧
        ∃ ds, Dict.get? s0.graph n = some ds ∧ ∀ d ∈ ds, d ∈ s0.nodes ∧ d ≠ n))

theorem Spec.DescribedNodes.like (hd : DescribedNodes s0) : LikeAt s0 s0 := by
  refine ⟨rfl, rfl, rfl, fun n hn => ?_⟩
  obtain ⟨h1, ⟨c, h2, h3⟩ | ⟨o, c, k, h2, h3, h4, h5⟩ | ⟨h2, h3⟩⟩ := hd n hn
  · refine ⟨h1, .inl ⟨c, h2, h3, fun ar p => ?_, fun o c' k e => ?_⟩⟩
    · unfold rule; rw [h2]
      cases h3 <;> rfl
    · rw [h2] at e; cases e; cases h3
  · exact ⟨h1, .inr (.inl ⟨o, c, k, h2, h3, h4, h2, h5⟩)⟩
  · exact ⟨h1, .inr (.inr ⟨h2, h2, h3⟩)⟩

/-- When the run has begun, all nodes have conditions. -/
theorem LikeAt.start (hl : LikeAt s0 s) {abs : Bool} (hs : s.start a = (t, .ok abs)) :
    ∀ n ∈ s0.queue.flatten,
      (∃ c, Dict.get? t.conds n = some c ∧ Described t.store (some n) c ∧
        (∀ ar p, holds ar (some n) p c = rule s0 ar n p) ∧
        ∀ o c k, Dict.get? s0.conds n ≠ some (.nwhen o c k)) ∨
      (∃ o c k, Dict.get? t.conds n = some (.nwhen o c k) ∧ Described t.store (some n) c ∧
        o < s.store.fresh ∧ Dict.get? s0.conds n = some (.nwhen o c k) ∧
        ∀ m c' k', Dict.get? s0.conds m = some (.nwhen o c' k') → m = n) := by
  intro n hn
  have st := Sys.start_ok hs
  obtain ⟨hx, k1, k2, _⟩ := st.conds_spec
  obtain ⟨h1, ⟨c, h2, h3, h4⟩ | ⟨o, c, k, h2, h3, h4, h5⟩ | ⟨h2, h3, ds, h4, h5⟩⟩ := hl.conds n hn
  · exact .inl ⟨c, k1 n c h2, h3.ext fun o ho => ⟨Nat.lt_of_lt_of_le ho hx.fresh, hx.owner o ho⟩, h4⟩
  · exact .inr ⟨o, c, k, k1 n _ h2,
      h3.ext fun o ho => ⟨Nat.lt_of_lt_of_le ho hx.fresh, hx.owner o ho⟩, h4, h5⟩
  · obtain ⟨deps, c, e1, e2, e3⟩ := k2 n (by rw [hl.nodes]; exact h1) h2
    rw [hl.graph, h4] at e1
    injection e1 with e1
    subst e1
    obtain ⟨d1, d2⟩ := e3.waitsFor.described (by
      intro x hx
      obtain ⟨d, hd, rfl⟩ := List.mem_map.1 hx
      exact (h5 d hd).2)
    refine .inl ⟨c, e2, d1, fun ar p => ?_, by rw [h3]; simp⟩
    rw [d2]
    unfold rule
    rw [h3, h4]
    refine decide_eq_decide.2 ?_
    simp

/-- After the run, too. -/
theorem LikeAt.after {abs : Bool} (hl : LikeAt s0 s) (hr : Scripted w a s abs h t pc) : LikeAt s0 t := by
  have hre := hr.reach
  obtain ⟨s1, h1, h2, h3, h4⟩ := hre.conds_start (by rintro _ _ ⟨_, rfl⟩; rfl) (by rintro _ _ ⟨_, rfl⟩; rfl)
    (by rintro _ _ ⟨_, rfl⟩; exact Nat.le_refl _)
  refine ⟨(hre.keepNodes (by rintro _ _ ⟨_, rfl⟩; rfl)).trans hl.nodes, ?_,
    (hre.keepQueue (by rintro _ _ ⟨_, rfl⟩; rfl)).trans hl.queue, fun n hn => ⟨(hl.conds n hn).1, ?_⟩⟩
  · exact (hre.keep (fun s => s.graph) (by rintro _ _ ⟨_, rfl⟩; rfl) (fun _ _ f => f.graph)
      fun _ f => f.graph).trans hl.graph
  · have hf := (Sys.start_ok h1).conds_spec.1.fresh
    rcases hl.start h1 n hn with ⟨c, e1, e2, e3⟩ | ⟨o, c, k, e1, e2, e3, e4⟩
    · exact .inl ⟨c, by rw [h2]; exact e1,
        e2.ext fun o ho => ⟨Nat.lt_of_lt_of_le ho h4, by rw [h3]⟩, e3⟩
    · exact .inr (.inl ⟨o, c, k, by rw [h2]; exact e1,
        e2.ext fun o ho => ⟨Nat.lt_of_lt_of_le ho h4, by rw [h3]⟩,
        Nat.lt_of_lt_of_le e3 (Nat.le_trans hf h4), e4⟩)

/-- The satisfactions of the `NWhen` conditions of nodes. -/
def SatAt (s0 s : Sys α κ W) (id : Option κ) (f : α → Nat) : Prop :=
  ∀ n ∈ s0.queue.flatten, ∀ o c k, Dict.get? s0.conds n = some (.nwhen o c k) → s.store.sat o id = f n

/-- A node with `NWhen` has been selected as often as its condition was satisfied. -/
theorem LikeAt.sat {abs : Bool} (hl : LikeAt s0 s) {f : α → Nat} (hf : SatAt s0 s a.id f)
    (ha : EndsApart s0 a) (hr : Scripted w a s abs h t pc) (hpc : ∀ e, pc ≠ .raised e) :
    SatAt s0 t a.id fun n => f n + (selections h).count n := by
  induction hr with
  | start hs =>
    intro n hn o c k hc
    have hx := (Sys.start_ok hs).conds_spec.1
    obtain ⟨_, ⟨c', _, _, _, h2⟩ | ⟨o', c', k', h2, _, h3, h4, _⟩ | ⟨_, h2, _⟩⟩ := hl.conds n hn
    · exact absurd hc (h2 _ _ _)
    · rw [hc] at h4; cases h4
      rw [hx.sat o h3, hf n hn o c k hc]; rfl
    · rw [hc] at h2; cases h2
  | @step h s1 s2 pc pc' ev hr hst ih =>
    have hpc0 : ∀ e, pc ≠ .raised e := by
      rintro e rfl
      cases hst
      exact hpc e rfl
    have ih := ih hpc0
    have hre := hr.reach
    intro n hn o c k hc
    have i0 := ih n hn o c k hc
    have hsr := Sys.step_stepR hst
    by_cases hch : ∃ c0, pc = .choosing c0
    · obtain ⟨c0, rfl⟩ := hch
      have hu := resumed_not (w := w) (s := s1) (pc := .choosing c0) (ys := yields h) rfl
      rw [hu] at hsr ⊢
      have ci := hre.choice c0 rfl
      have hq := hre.keepQueue (by rintro _ _ ⟨_, rfl⟩; rfl)
      have inq : ∀ m ∈ c0.layer, m ∈ s0.queue.flatten := by
        intro m hm
        rw [← hl.queue, ← hq]
        exact List.mem_flatten.2 ⟨c0.layer, List.mem_of_getElem? ci.queue, hm⟩
      obtain ⟨u, g1, g2, g3, g4⟩ := hre.conds_start (by rintro _ _ ⟨_, rfl⟩; rfl)
        (by rintro _ _ ⟨_, rfl⟩; rfl) (by rintro _ _ ⟨_, rfl⟩; exact Nat.le_refl _)
      have key : ∀ m cond st b, m ∈ s0.queue.flatten → Dict.get? s1.conds m = some cond →
          eval s1.toView a.id cond s1.store = (.ok b, st) →
          st.sat o a.id = s1.store.sat o a.id + (if b = true ∧ m = n then 1 else 0) := by
        intro m cond st b hm hcond he
        rcases hl.start g1 m hm with ⟨c', e1, e2, _, e3⟩ | ⟨o', c', k', e1, e2, _, e3, e4⟩
        · rw [g2, e1] at hcond; cases hcond
          have hmn : m ≠ n := by rintro rfl; exact e3 _ _ _ hc
          have := eval_sat s1.toView a.id cond s1.store (o := o) (by rw [e2.no_nwhens]; simp)
          rw [he] at this
          rw [this, if_neg fun x => hmn x.2]; rfl
        · rw [g2, e1] at hcond; cases hcond
          by_cases hmn : m = n
          · subst hmn
            rw [hc] at e3; cases e3
            have k1 := eval_sat s1.toView a.id c s1.store (o := o) (by rw [e2.no_nwhens]; simp)
            simp only [eval] at he
            split at he
            · rcases r : eval s1.toView a.id c s1.store with ⟨x | y, st1⟩
              · rw [r] at he; cases he
              · rw [r] at he k1
                dsimp only at k1
                cases y
                · cases he; rw [k1]; simp
                · cases he
                  simp [Store.bumpSat, k1]
            · cases he; simp
          · have hoo : o ≠ o' := by
              rintro rfl
              exact hmn (e4 n c k hc).symm
            have := eval_sat s1.toView a.id (.nwhen o' c' k') s1.store (o := o)
              (by simp only [nwhens, e2.no_nwhens]; simp [hoo])
            rw [he] at this
            rw [this, if_neg fun x => hmn x.2]; rfl
      cases hsr with
      | again ht hag => simpa using i0
      | skip ht hn' => simpa using i0
      | @reject _ m ns cond st ht hn' hcond he =>
        have hml : m ∈ c0.layer := by obtain ⟨d, hd⟩ := ci.todo; rw [hd, ht]; simp
        have := key m cond st false (inq m hml) hcond he
        simp only [Bool.false_eq_true, false_and, if_false, Nat.add_zero] at this
        simp only [Option.toList_none, List.map_nil, List.append_nil]
        exact this.trans i0
      | @add _ m ns cond st f' u' ht hn' hcond he hf' hu' hm' =>
        have hml : m ∈ c0.layer := by obtain ⟨d, hd⟩ := ci.todo; rw [hd, ht]; simp
        have := key m cond st true (inq m hml) hcond he
        simp only [Option.toList_some, List.map_cons, List.map_nil, selections_snoc, Event.add?,
          Option.toList_some, List.count_append, List.count_singleton]
        refine this.trans ?_
        rw [i0]
        simp only [true_and, beq_iff_eq]
        omega
      | yield ht hag ha' hne hx =>
        simp only [Option.toList_some, List.map_cons, List.map_nil, selections_snoc, Event.add?,
          Option.toList_none, List.append_nil]
        exact i0
      | yieldAbs ht hag ha' hx =>
        simp only [Option.toList_some, List.map_cons, List.map_nil, selections_snoc, Event.add?,
          Option.toList_none, List.append_nil]
        exact i0
      | silent ht hag ha' hne => simpa [selections_snoc, Event.add?] using i0
      | fails => exact absurd rfl (hpc _)
    · have hss : (resumed w (yields h) s1 pc).store = s1.store := by
        unfold resumed; split <;> rfl
      obtain ⟨a1, a2⟩ := ha n o c k hc
      have := Sys.step_sat hst a1 a2 fun c0 e => hch ⟨c0, e⟩
      rw [hss] at this
      rw [this, i0]
      congr 2
      cases hsr with
      | again | skip | reject | add | yield | yieldAbs | silent => exact absurd ⟨_, rfl⟩ hch
      | fails => exact absurd rfl (hpc _)
      | _ => simp [selections_snoc, Event.add?]

theorem Spec.DescribedEnd.apart (hE : DescribedEnd a) : EndsApart s0 a := by
  intro n o c k _
  obtain ⟨d1, d2⟩ := hE s0.store
  rw [d1.no_nwhens, d2.no_nwhens]; simp

theorem LikeAt.fits {abs : Bool} (hl : LikeAt s0 s) (hS : Stands s a.id runs)
    (hA : SatAt s0 s a.id fun n => runs.flatten.flatten.flatten.count n) (hE : DescribedEnd a)
    (hfin : Tells s w a ar) : Fits abs w a s runs (rule s0 ar) (stop a ar) := by
  constructor
  · intro h t c ps y n cond b hr hpy hn hc he
    have hre := hr.reach
    have k := hr.knows hS hfin (own := some n) (p := ⟨runs, ps, y, c.exec⟩) ⟨ps, y, hpy, rfl⟩
    have ci := hre.choice c rfl
    have hq := hre.keepQueue (by rintro _ _ ⟨_, rfl⟩; rfl)
    have hnq : n ∈ s0.queue.flatten := by
      rw [← hl.queue, ← hq]
      exact List.mem_flatten.2 ⟨c.layer, List.mem_of_getElem? ci.queue, hn⟩
    obtain ⟨s1, h1, h2, h3, h4⟩ := hre.conds_start (by rintro _ _ ⟨_, rfl⟩; rfl) (by rintro _ _ ⟨_, rfl⟩; rfl)
      (by rintro _ _ ⟨_, rfl⟩; exact Nat.le_refl _)
    rcases hl.start h1 n hnq with ⟨c', e1, e2, e3, _⟩ | ⟨o, c', m, e1, e2, _, e3, _⟩
    · rw [h2, e1] at hc
      injection hc with hc
      subst hc
      rw [← e3]
      exact (k.eval (st0 := s1.store) (st := t.store) (fun o _ => by rw [h3]) c' e2).2 b he
    · rw [h2, e1] at hc
      injection hc with hc
      subst hc
      have hs := hl.sat hA hE.apart hr (by simp) n hnq o c' m e3
      obtain ⟨r, hpr, hsel⟩ := hre.pending
      cases hpr
      have hcalls : t.store.sat o a.id = (⟨runs, ps, y, c.exec⟩ : Past α).calls .life n := by
        rw [hs, hsel, ← hre.passYields_flatten.1, hpy]
        simp [Past.calls, Past.all, Past.inRun]
      obtain ⟨k1, k2⟩ := k.eval (st0 := s1.store) (st := t.store) (fun o _ => by rw [h3]) c' e2
      unfold rule
      rw [e3]
      dsimp only
      rw [← hcalls]
      simp only [eval] at he
      split at he
      · rename_i hlt
        rw [decide_eq_true hlt, Bool.true_and]
        rcases r : eval t.toView a.id c' t.store with ⟨x | z, st1⟩
        · rw [r] at he; cases he
        · rw [r] at he k2
          rw [k2 z rfl]
          cases z <;> (injection he)
      · rename_i hlt
        injection he with he
        rw [decide_eq_false hlt, Bool.false_and]; exact he
  · intro h t pc p st hr hp
    have hre := hr.reach
    have k := hr.knows hS hfin hp
    obtain ⟨d1, d2⟩ := hE t.store
    have ev1 := k.eval (st0 := t.store) (st := t.store) (fun o _ => rfl) a.esu d1
    have ev2 := k.eval (st0 := t.store) (st := t.store) (fun o _ => rfl) a.seq d2
    unfold stop
    constructor
    · rintro ⟨st1, g1, g2⟩
      rw [g1] at ev1
      have : st1 = t.store := ev1.1
      subst this
      rw [g2] at ev2
      rw [ev1.2 false rfl, ev2.2 false rfl]; rfl
    · rintro (g1 | ⟨st1, g1, g2⟩)
      · rw [g1] at ev1
        rw [ev1.2 true rfl]; rfl
      · rw [g1] at ev1
        have : st1 = t.store := ev1.1
        subst this
        rw [g2] at ev2
        rw [ev2.2 true rfl, Bool.or_true]

/-! ## Several runs -/

theorem Spec.Unused.stands {id : Option κ} (hu : Unused s0 id) : Stands s0 id [] :=
  ⟨⟨_, hu.calls, fun _ _ _ => rfl⟩, hu.sets, hu.clock⟩

theorem Stands.after {abs : Bool} (hS : Stands s a.id runs) (hsk : a.skip = false)
    (hr : Scripted w a s abs h t .returned) : Stands t a.id (runs ++ [passYields h]) := by
  have hre := hr.reach
  obtain ⟨s1, hs1⟩ := Props.scripted_start hr
  have st := Sys.start_ok hs1
  obtain ⟨f0, hf0, hz, hc, _⟩ := st.total
  obtain ⟨g0, hg0, hg⟩ := hS.calls
  have hc := hc g0 hg0
  obtain ⟨f, hf, ci⟩ := hre.counts (by rintro _ _ ⟨_, rfl⟩; rfl) hs1 hf0
  obtain ⟨l0, hl0, hl, _⟩ := st.list
  have hl := hl _ hS.list
  subst hl
  have hx := hre.execs (by rintro _ _ ⟨_, rfl⟩; rfl) (by simp) hs1 hl0
  have hcl : Shows _ _ := hre.clockAt (by rintro _ _ ⟨_, rfl⟩; rfl) hS.clock
  have hpy := hre.passYields_flatten.1
  obtain ⟨r, hpr, hsel⟩ := hre.pending
  cases hpr
  refine ⟨⟨f, hf, fun ts n hts => ?_⟩, ?_, ?_⟩
  · rw [ci.coarse _ _ hts, hc _ _ hts, hg _ _ hts, hsel, ← hpy]
    simp
  · rw [hx, ← hpy]; simp
  · rw [runsLog_snoc]
    simpa [hsk] using hcl

theorem Spec.CompleteRuns.like {id : Option κ} (hc : CompleteRuns id s0 runs s) (hd : DescribedNodes s0) :
    LikeAt s0 s := by
  induction hc with
  | nil => exact hd.like
  | world x _ ih => exact ⟨ih.nodes, ih.graph, ih.queue, ih.conds⟩
  | run _ _ _ _ hr ih => exact ih.after hr

theorem Spec.CompleteRuns.stands {id : Option κ} (hc : CompleteRuns id s0 runs s) (hu : Unused s0 id) :
    Stands s id runs := by
  induction hc with
  | nil => exact hu.stands
  | world x _ ih => exact ⟨ih.calls, ih.list, ih.clock⟩
  | run _ hid hsk _ hr ih =>
    subst hid
    exact ih.after hsk hr

theorem Spec.CompleteRuns.sat {id : Option κ} (hc : CompleteRuns id s0 runs s) (hd : DescribedNodes s0)
    (hu : Unused s0 id) : SatAt s0 s id fun n => runs.flatten.flatten.flatten.count n := by
  induction hc with
  | nil => exact fun n hn o c k h => hu.nwhen n o c k h
  | world x _ ih => exact ih
  | @run runs s s' w a abs h hc hid hsk hA hr ih =>
    subst hid
    intro n hn o c k hcond
    have := (hc.like hd).sat ih hA hr (by simp) n hn o c k hcond
    obtain ⟨r, hpr, hsel⟩ := hr.reach.pending
    cases hpr
    rw [this, hsel, ← hr.reach.passYields_flatten.1]
    simp

end GS
