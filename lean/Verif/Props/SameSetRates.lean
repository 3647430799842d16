import Verif.SameSetRates
import Verif.Props.GoesFirst
import Verif.Props.RatedList
/-!
# C119: nodes with rates, also in the same consideration set; C12 for a node's own calls

Specification: `Verif/Spec/SameSetRates.lean`.
-/

set_option linter.unusedSectionVars false

namespace GS
open Spec Props
variable {α κ W : Type _} [DecidableEq α] [DecidableEq κ]
variable {s : Sys α κ W} {waits : α → List (α × Nat)} {rate depth : α → Nat}

section
variable (hq : s.queue.flatten.Nodup) (hqn : ∀ n, n ∈ s.queue.flatten ↔ n ∈ s.nodes)
  (hG : RatedTogether s waits rate depth)
include hq hqn hG

theorem Spec.RatedTogether.other {n : α} (hn : n ∈ s.nodes) : ∀ x ∈ waits n, x.1 ≠ n := by
  intro x hx e
  obtain ⟨_, _, i, j, h1, h2, h3⟩ := (hG n hn).2.2 x hx
  rw [e] at h1 h3
  have := places_of_nodup hq i j n h1 h2
  omega

theorem Spec.RatedTogether.described : DescribedNodes s := by
  intro n hn
  have hn' := (hqn n).1 hn
  refine ⟨hn', ?_⟩
  obtain ⟨h1, _, h3⟩ := hG n hn'
  have ho := hG.other hq hqn hn'
  rcases h1 with ⟨c, hc, hw⟩ | ⟨hc, deps, hd, hl⟩
  · exact .inl ⟨c, hc, (hw.described ho).1⟩
  · refine .inr (.inr ⟨hc, deps, hd, fun d hdd => ?_⟩)
    have hx : (d, 1) ∈ waits n := by rw [hl]; exact List.mem_map.2 ⟨d, hdd, rfl⟩
    exact ⟨(h3 _ hx).1, ho _ hx⟩

theorem Spec.RatedTogether.rule_eq (e : Around α κ W) {n : α} (hn : n ∈ s.nodes) (p : Past α) :
    rule s e n p = decide (∀ x ∈ waits n, x.2 ≤ (since n (p.inRun.flatten ++ p.next)).count x.1) := by
  obtain ⟨h1, _, h3⟩ := hG n hn
  have ho := hG.other hq hqn hn
  have hcs : ∀ d, d ≠ n → p.callsSince n d = (since n (p.inRun.flatten ++ p.next)).count d := by
    intro d hd; simp [Past.callsSince, hd]
  unfold Spec.rule
  rcases h1 with ⟨c, hc, hw⟩ | ⟨hc, deps, hd, hl⟩
  · have key := (hw.described ho).2 e p
    have hnw : ∀ o c' k, c ≠ .nwhen o c' k := by
      rintro o c' k rfl
      generalize waits n = l at hw
      cases hw
    have key2 : holds e (some n) p c =
        decide (∀ x ∈ waits n, x.2 ≤ (since n (p.inRun.flatten ++ p.next)).count x.1) := by
      rw [key, decide_eq_decide]
      constructor
      · intro g x hx; rw [← hcs _ (ho x hx)]; exact g x hx
      · intro g x hx; rw [hcs _ (ho x hx)]; exact g x hx
    rw [hc, ← key2]
    cases c with
    | nwhen o c' k => exact absurd rfl (hnw o c' k)
    | _ => rfl
  · rw [hc]
    simp only [hd]
    rw [decide_eq_decide]
    constructor
    · intro g x hx
      have hx' := hx
      rw [hl] at hx'
      obtain ⟨d, hdd, rfl⟩ := List.mem_map.1 hx'
      rw [← hcs _ (ho _ hx)]
      exact g d hdd
    · intro g d hdd
      have hx : (d, 1) ∈ waits n := by rw [hl]; exact List.mem_map.2 ⟨d, hdd, rfl⟩
      rw [hcs _ (ho _ hx)]
      exact g _ hx

end

end GS

namespace GS.Props
open Spec TimeScale
variable {α κ W : Type _} [DecidableEq α] [DecidableEq κ]
variable {w : List (List α) → World α κ W} {a : RunArgs α κ W} {s0 s s1 t : Sys α κ W}
variable {waits : α → List (α × Nat)} {rate depth : α → Nat}
variable {h : History α κ W} {pc : PC α} {runs : List (List (List (List α)))} {abs : Bool}

/-- C119: a run of `N` passes. The `p`-th one yields, of every consideration set, the nodes
whose rate divides `p` — also if nodes wait for others of their own set, in whatever order the
set is gone through, and whatever runs were completed before. -/
theorem C119_passes (hq : s0.queue.flatten.Nodup) (hqn : ∀ n, n ∈ s0.queue.flatten ↔ n ∈ s0.nodes)
    (hG : RatedTogether s0 waits rate depth) (hu : Unused s0 a.id)
    (hc : CompleteRuns a.id s0 runs s) {N : Nat} (ha : AfterPasses N a)
    (hr : Scripted w a s false h t .returned) :
    SamePasses (passYields h) ((List.range N).map fun p => ratedPass rate s0.queue (p + 1)) := by
  have hD := hG.described hq hqn
  have hl := hc.like hD
  have htell := C81_tells s w a (fun i j n hi hj => places_of_nodup hq i j n
    (by rw [← hl.queue]; exact hi) (by rw [← hl.queue]; exact hj))
  have key := (C81_returned hD hu hc ha.described htell hr).2 (N + passes h) (by omega)
  obtain ⟨B, k1, k2, _⟩ := reference_rated (R := rule s0 (aroundOf s w a))
    (S := stop a (aroundOf s w a)) (runs := runs) (N := N) hqn hq
    (fun n hn p => hG.rule_eq hq hqn _ hn p) (fun n hn => (hG n hn).2.1) (fun n hn => (hG n hn).2.2)
    (fun p hp => by
      have := ha.stop (aroundOf s w a) p
      simp only [this]; simpa using hp) N (Nat.le_refl _)
  have hlen : B.length = N := by rw [All2.length k2]; simp
  have more : ∀ m, reference false (rule s0 (aroundOf s w a)) (stop a (aroundOf s w a)) s0.queue
      (N + m) ⟨runs, [], [], []⟩ = ⟨runs, B, [], []⟩ := by
    intro m
    induction m with
    | zero => exact k1
    | succ m ih =>
      rw [← Nat.add_assoc, reference_succ, ih, if_pos]
      rw [ha.stop]; simp [hlen]
  rw [more] at key
  have hB : B = passYields h := by injection key
  rw [← hB]
  exact k2

theorem ratedSchedule_occurs (hqn : ∀ n, n ∈ s0.queue.flatten ↔ n ∈ s0.nodes)
    (hG : RatedTogether s0 waits rate depth) {n : α} (hn : n ∈ s0.nodes) {M : Nat} (hM : rate n ≤ M) :
    ∃ x ∈ ratedSchedule rate s0.queue M, n ∈ x := by
  have hpos : 1 ≤ rate n := by rw [(hG n hn).2.1]; exact slowest_pos rate _
  obtain ⟨layer, hlay, hnl⟩ := List.mem_flatten.1 ((hqn n).2 hn)
  have hx : n ∈ layer.filter fun m => decide (rate m ∣ rate n - 1 + 1) := by
    rw [Nat.sub_add_cancel hpos]; simp [hnl]
  refine ⟨_, List.mem_flatMap.2 ⟨rate n - 1, List.mem_range.2 (by omega), ?_⟩, hx⟩
  have hmem : (layer.filter fun m => decide (rate m ∣ rate n - 1 + 1)) ∈
      (s0.queue.map fun layer => layer.filter fun m => decide (rate m ∣ rate n - 1 + 1)).filter
        fun x => !x.isEmpty :=
    List.mem_filter.2 ⟨List.mem_map.2 ⟨layer, hlay, rfl⟩, by
      have := List.ne_nil_of_mem hx; simpa using this⟩
  unfold ratedPass orEmpty
  split
  · rename_i e; rw [e] at hmem; cases hmem
  · rename_i e; rw [e] at hmem; exact hmem

/-- C119: with the default termination conditions, a run yields the sets of that schedule up
to the one with which every node has executed. -/
theorem C119_default (hq : s0.queue.flatten.Nodup) (hqn : ∀ n, n ∈ s0.queue.flatten ↔ n ∈ s0.nodes)
    (hG : RatedTogether s0 waits rate depth) (hu : Unused s0 a.id)
    (hc : CompleteRuns a.id s0 runs s) (ha : DefaultTermination a)
    (hr : Scripted w a s false h t .returned) {M : Nat} (hM : ∀ n ∈ s0.nodes, rate n ≤ M) :
    SameSets (yields h) (untilAll s0.nodes (ratedSchedule rate s0.queue M)) := by
  have hD := hG.described hq hqn
  have hl := hc.like hD
  have htell := C81_tells s w a (fun i j n hi hj => places_of_nodup hq i j n
    (by rw [← hl.queue]; exact hi) (by rw [← hl.queue]; exact hj))
  have hen : (aroundOf s w a).nodes = s0.nodes := htell.nodes.trans hl.nodes
  have key := (C81_returned hD hu hc (defaultTermination_described ha) htell hr).2 (M + passes h) (by omega)
  obtain ⟨B, C, rest, k1, k2, k3, _⟩ := reference_cut (R := rule s0 (aroundOf s w a))
    (S := stop a (aroundOf s w a)) (q := s0.queue) (runs := runs) (nodes := s0.nodes) (fun p hp => by
      rw [defaultTermination_stop ha, hen, hp, List.append_nil]) (M + passes h)
  obtain ⟨C', j1, j2, _⟩ := reference_rated (R := rule s0 (aroundOf s w a))
    (S := fun _ => false) (runs := runs) (N := M + passes h) hqn hq
    (fun n hn p => hG.rule_eq hq hqn _ hn p) (fun n hn => (hG n hn).2.1) (fun n hn => (hG n hn).2.2)
    (fun _ _ => rfl) (M + passes h) (Nat.le_refl _)
  have hC : C' = C := by rw [k2] at j1; injection j1 with _ e; exact e.symm
  subst hC
  rw [k1] at key
  have hB : B = passYields h := by injection key
  subst hB
  have hsch := samePasses_flatten j2
  rw [k3, hr.reach.passYields_flatten.1] at hsch
  have efl : ((List.range (M + passes h)).map fun p => ratedPass rate s0.queue (p + 1)).flatten =
      ratedSchedule rate s0.queue (M + passes h) := by
    unfold ratedSchedule; rw [List.flatMap_def]
  rw [efl] at hsch
  -- every node occurs in the first `M` passes
  obtain ⟨r, hr'⟩ := ratedSchedule_le rate s0.queue (Nat.le_add_right M (passes h))
  have hocc : ∀ n ∈ s0.nodes, ∃ x ∈ ratedSchedule rate s0.queue M, n ∈ x := fun n hn =>
    ratedSchedule_occurs hqn hG hn (hM n hn)
  rw [← untilAll_append (m := r) hocc, ← hr']
  obtain ⟨pre, post, h1, h2, _⟩ := SameSets_split hsch
  have hT : Keeps (fun s s' : Sys α κ W => ∃ w, s' = { s with world := w })
      fun s => Dict.get? s.countsTotal a.id := by rintro s s' ⟨w, rfl⟩; rfl
  have hN : Keeps (fun s s' : Sys α κ W => ∃ w, s' = { s with world := w })
      fun s => s.nodes := by rintro s s' ⟨w, rfl⟩; rfl
  have hall := C15_all_have_run ha hr.reach hT hN
  have hmin := fun l1 l2 x => C15_no_proper_prefix ha hr.reach hT hN (l1 := l1) (l2 := l2) (x := x)
  rw [hl.nodes] at hall hmin
  rw [h1, untilAll_eq]
  · exact h2
  · intro n hn
    obtain ⟨x, hx, hnx⟩ := hall n hn
    obtain ⟨y1, y2, hy⟩ := List.append_of_mem hx
    rw [hy] at h2
    obtain ⟨m1, m2, rfl, _, g3⟩ := SameSets_split h2
    cases g3 with
    | cons g4 _ => exact ⟨_, by simp, (g4 n).1 hnx⟩
  · intro l1 x l2 he
    rw [he] at h2
    obtain ⟨m1, m2, g1, g2, g3⟩ := SameSets_split h2.symm
    cases g3 with
    | cons g4 _ =>
      obtain ⟨n, hn, hno⟩ := hmin m1 _ _ g1
      refine ⟨n, hn, fun y hy hny => ?_⟩
      obtain ⟨y1, y2, rfl⟩ := List.append_of_mem hy
      obtain ⟨k1, k2, rfl, _, g6⟩ := SameSets_split g2
      cases g6 with
      | cons g7 _ => exact hno _ (by simp) ((g7 n).1 hny)

theorem waitsFor_sane {s0 : Sys α κ W} {id : Option κ} {P : World α κ W → Prop} {n : α} (hn : n ∈ s0.nodes)
    {c : Cond α κ W} {l : List (α × Nat)} (hw : WaitsFor s0.store n c l) (hl : ∀ x ∈ l, x.1 ∈ s0.nodes) :
    Sane (settingOf s0 id P) s0.store c := by
  induction hw with
  | always => trivial
  | every o d k hk ho => exact ⟨hl (d, k) (by simp), ho.1, n, hn, ho.2⟩
  | allNil => trivial
  | allCons o c cs l m _ _ ih1 ih2 =>
    exact ⟨ih1 fun x hx => hl x (List.mem_append_left _ hx), ih2 fun x hx => hl x (List.mem_append_right _ hx)⟩

/-- C119: such a run, left alone, raises nothing and returns, and yields that list. -/
theorem C119_run (hH : Healthy s0) (hq : s0.queue.flatten.Nodup) (hG : RatedTogether s0 waits rate depth)
    (hu : Unused s0 a.id) (ha : DefaultTermination a)
    (ho : ∀ n c, Dict.get? s0.conds n = some c → n ∈ s0.nodes)
    (hs : s0.start a = (s1, .ok false)) {M : Nat} (hM : ∀ n ∈ s0.nodes, rate n ≤ M) :
    ∃ k h s, exec s0 a k = some (false, h, s, .returned) ∧
      SameSets (yields h) (untilAll s0.nodes (ratedSchedule rate s0.queue M)) := by
  have ha' := ha
  obtain ⟨o, o', e1, e2⟩ := ha
  have hqn := hH.placed
  have hD := hG.described hq hqn
  have htell := C81_tells s0 (fun _ => s0.world) a (fun i j n hi hj => places_of_nodup hq i j n hi hj)
  have hst : ∀ p : Past α, p.next = [] → (stop a (aroundOf s0 (fun _ => s0.world) a) p = true ↔
      ∀ n ∈ s0.nodes, n ∈ p.inRun.flatten) := fun p hp => by
    rw [defaultTermination_stop ha', htell.nodes, hp, List.append_nil]
  obtain ⟨B, C, rest, k1, k2, k3, k4⟩ := reference_cut (R := rule s0 (aroundOf s0 (fun _ => s0.world) a))
    (S := stop a (aroundOf s0 (fun _ => s0.world) a)) (q := s0.queue) (runs := []) (nodes := s0.nodes) hst M
  obtain ⟨C', j1, j2, _⟩ := reference_rated (R := rule s0 (aroundOf s0 (fun _ => s0.world) a))
    (S := fun _ => false) (runs := []) (N := M) hqn hq
    (fun n hn p => hG.rule_eq hq hqn _ hn p) (fun n hn => (hG n hn).2.1) (fun n hn => (hG n hn).2.2)
    (fun _ _ => rfl) M (Nat.le_refl _)
  have hC : C' = C := by rw [k2] at j1; injection j1 with _ e; exact e.symm
  subst hC
  have hB : stop a (aroundOf s0 (fun _ => s0.world) a) ⟨[], B, [], []⟩ = true := by
    apply Classical.byContradiction
    intro hB
    have hB' : stop a (aroundOf s0 (fun _ => s0.world) a) ⟨[], B, [], []⟩ = false := by simpa using hB
    obtain rfl := k4 hB'
    refine hB ((hst _ rfl).2 fun n hn => ?_)
    obtain ⟨x, hx, hnx⟩ := ratedSchedule_occurs hqn hG hn (hM n hn)
    have efl : ((List.range M).map fun p => ratedPass rate s0.queue (p + 1)).flatten =
        ratedSchedule rate s0.queue M := by unfold ratedSchedule; rw [List.flatMap_def]
    have hsch := samePasses_flatten j2
    rw [efl] at hsch
    obtain ⟨y1, y2, hy⟩ := List.append_of_mem hx
    rw [hy] at hsch
    obtain ⟨m1, m2, g1, _, g3⟩ := SameSets_split hsch.symm
    cases g3 with
    | cons g4 _ =>
      simp only [Past.inRun, List.append_nil, g1, List.flatten_append, List.flatten_cons, List.mem_append]
      exact .inr (.inl ((g4 n).1 hnx))
  have more : ∀ m, reference false (rule s0 (aroundOf s0 (fun _ => s0.world) a))
      (stop a (aroundOf s0 (fun _ => s0.world) a)) s0.queue (M + m) ⟨[], [], [], []⟩ = ⟨[], B, [], []⟩ := by
    intro m
    induction m with
    | zero => exact k1
    | succ m ih => rw [← Nat.add_assoc, reference_succ, ih, if_pos hB]
  obtain ⟨k, h, s, pc, g1, g2⟩ := bounded_ends hs B.flatten.length (by
    intro j h s pc hj
    have hr : Reach (fun _ _ => False) a s0 false h s pc := steps_reach (.start hs) hj
    have := C81_prefix hD hu .nil (defaultTermination_described ha') htell (alone_scripted hr).1
      (N := M + passes h) (by omega)
    rw [more] at this
    exact this.length_le)
  have hr : Reach (fun _ _ => False) a s0 false h s pc := steps_reach (.start hs) g1
  have hS : ∀ e, pc ≠ .raised e := by
    refine C90_never_raises (P := fun w => w = s0.world) hH rfl (fun n c hc => ?_)
      (by rw [e1]; intro d hd; cases hd) (by rw [e2]; trivial) (fun h => by cases h)
      (steps_reach (.start hs) g1)
    have hn := ho n c hc
    obtain ⟨h1, _, h3⟩ := hG n hn
    rcases h1 with ⟨c', hc', hw⟩ | ⟨hc', _⟩
    · rw [hc] at hc'; cases hc'
      exact waitsFor_sane hn hw fun x hx => (h3 x hx).1
    · rw [hc] at hc'; cases hc'
  have hpc : pc = .returned := by
    cases pc with
    | returned => rfl
    | raised e => exact absurd rfl (hS e)
    | _ => cases g2
  subst hpc
  refine ⟨k, h, s, by unfold exec; rw [hs]; simp only [g1], ?_⟩
  exact C119_default hq hqn hG hu .nil ha' (alone_scripted hr).1 hM

/-! ## Exact-time mode -/

/-- Without conditions, all nodes of a scheduler in exact-time mode have rate 1. -/
theorem exact_ratedTogether (g : Graph α) (hg : Dict.WF g) (hc : ¬ HasCycle g) (hse : ∀ n, ¬ Edge g n n)
    (id : Option κ) (unit : Rat) (x : World α κ W) :
    RatedTogether (Sys.new g .exactTime id unit x)
      (fun n => ((Dict.get? (baseGraph g) n).getD []).map fun d => (d, 1)) (fun _ => 1)
      (fun n => (queueOf (baseGraph g)).findIdx fun l => decide (n ∈ l)) := by
  intro n hn
  have hk : (Dict.get? (baseGraph g) n).isSome = true := (Dict.get?_isSome ..).2 hn
  obtain ⟨ds, hds⟩ := Option.isSome_iff_exists.1 hk
  have hslow : ∀ l : List (α × Nat), (∀ x ∈ l, x.2 = 1) → slowest (fun _ => 1) l = 1 := by
    intro l
    induction l with
    | nil => intro _; rfl
    | cons y l ih =>
      intro h
      simp only [slowest, ih fun x hx => h x (by simp [hx]), h y (by simp)]
      rfl
  refine ⟨.inr ⟨rfl, ds, hds, by dsimp only; rw [hds]; rfl⟩, ?_, ?_⟩
  · symm
    apply hslow
    intro y hy
    obtain ⟨d, _, rfl⟩ := List.mem_map.1 hy
    rfl
  · intro y hy
    obtain ⟨d, hd, rfl⟩ := List.mem_map.1 hy
    rw [hds] at hd
    have he : Edge g d n :=
      (baseGraph_edge g hg d n).1 ((edge_iff_get? (baseGraph_wf g) d n).2 ⟨ds, hds, hd⟩)
    have hdn : IsNode g d := by
      obtain ⟨p, hp, _, hdp⟩ := he
      exact .inr ⟨p, hp, hdp⟩
    have hmem : d ∈ Dict.keys (baseGraph g) := (baseGraph_keys g hg d).2 hdn
    have hplace : ∀ m, IsNode g m →
        At (queueOf (baseGraph g)) ((queueOf (baseGraph g)).findIdx fun l => decide (m ∈ l)) m := by
      intro m hm
      obtain ⟨l, hl, hml⟩ := List.mem_flatten.1 (((C01_partition g hg hc).2.2 m).2 hm)
      have hlt : (queueOf (baseGraph g)).findIdx (fun l => decide (m ∈ l)) < (queueOf (baseGraph g)).length :=
        List.findIdx_lt_length_of_exists ⟨l, hl, by simpa using hml⟩
      refine ⟨_, List.getElem?_eq_getElem hlt, ?_⟩
      simpa using List.findIdx_getElem (w := hlt)
    have hlt := C02_senders_first g hg hc d n he (fun e => hse n (e ▸ he)) _ _ (hplace d hdn)
      (hplace n ((baseGraph_keys g hg n).1 hn))
    exact ⟨hmem, Nat.le_refl 1, 0, 0, ⟨_, rfl, hmem⟩, ⟨_, rfl, hn⟩, .inr ⟨rfl, hlt⟩⟩

/-- C119, exact-time mode: the nodes of an acyclic graph, without conditions, execute all in
one set, and with the default termination conditions that set is all a run yields (when no
condition uses absolute time). -/
theorem C119_exact (g : Graph α) (hg : Dict.WF g) (hc : ¬ HasCycle g) (hse : ∀ n, ¬ Edge g n n)
    (hne : ∃ n, IsNode g n) (unit : Rat) (x : World α κ W)
    (hcr : CompleteRuns a.id (Sys.new g .exactTime a.id unit x) runs s) (ha : DefaultTermination a)
    (hr : Scripted w a s false h t .returned) :
    ∃ set, yields h = [set] ∧ ∀ n, n ∈ set ↔ IsNode g n := by
  have hH := C90_new g hg hc .exactTime a.id unit x
  have hQ : (Sys.new g .exactTime a.id unit x).queue = [Dict.keys (baseGraph g)] := rfl
  have hN : (Sys.new g .exactTime a.id unit x).nodes = Dict.keys (baseGraph g) := rfl
  have key := C119_default (by rw [hQ, List.flatten_cons, List.flatten_nil, List.append_nil]; exact baseGraph_wf g) hH.placed
    (exact_ratedTogether g hg hc hse a.id unit x) (C81_new g .exactTime a.id unit x) hcr ha hr (M := 1)
    (fun _ _ => Nat.le_refl 1)
  obtain ⟨m, hm⟩ := hne
  have hm' := (baseGraph_keys g hg m).2 hm
  have hk0 : Dict.keys (baseGraph g) ≠ [] := List.ne_nil_of_mem hm'
  have e : untilAll (Sys.new g .exactTime a.id unit x).nodes
      (ratedSchedule (fun _ => 1) (Sys.new g .exactTime a.id unit x).queue 1) = [Dict.keys (baseGraph g)] := by
    rw [hQ, hN]
    have e1 : ratedPass (fun _ => 1) [Dict.keys (baseGraph g)] (0 + 1) = [Dict.keys (baseGraph g)] := by
      unfold ratedPass
      rw [List.map_cons, List.map_nil, List.filter_eq_self.2 (fun _ _ => by simp)]
      exact orEmpty_of_ne (by simpa using hk0) (by simp)
    have e2 : ratedSchedule (fun _ => 1) [Dict.keys (baseGraph g)] 1 = [Dict.keys (baseGraph g)] := by
      show [0].flatMap _ = _
      rw [List.flatMap_cons, List.flatMap_nil, e1, List.append_nil]
    rw [e2, untilAll, if_neg hk0, untilAll]
  rw [e] at key
  generalize yields h = y at key
  cases key with
  | cons g1 g2 =>
    cases g2
    exact ⟨_, rfl, fun n => (g1 n).trans (baseGraph_keys g hg n)⟩

/-! ## C12: a node that waits for its own calls -/

/-- C12: `EveryNCalls(b, n)` owned by `b` itself is satisfied exactly if `n ≤ 0`, or `n = 1` and
`b` was selected before in this run: of its own calls a node always knows just the last one. -/
theorem C12_own {E : Sys α κ W → Sys α κ W → Prop} (hr : Reach E a s0 abs h s pc)
    (hE : Keeps E (fun s => Dict.get? s.countsUseable a.id)) {b : α}
    (hb : b ∈ s.nodes) {o : OId} (ho : s.store.owner o = some b) (n : Int) :
    ∃ r, Evaluates s a.id (.leaf o (.everyNCalls b n)) r ∧
      (r = true ↔ n ≤ 0 ∨ (n = 1 ∧ b ∈ selections h)) := by
  obtain ⟨u, hu, ui⟩ := hr.useable hE
  refine ⟨decide (n ≤ (u b b : Int)), ?_, ?_⟩
  · unfold Evaluates
    have hu' : s.toView.useable a.id b (some b) = .ok (u b b) := by
      unfold View.useable
      rw [hu]; simp only [hb, if_true]
    simp only [eval, evalLeaf, ho, hu', ge_iff_le]
  · rw [ui.self b]
    by_cases hm : b ∈ selections h
    · simp only [hm, if_true, decide_eq_true_eq, and_true]; omega
    · simp only [hm, if_false, decide_eq_true_eq, and_false, or_false]; omega

/-! ## The examples of the documentation -/

/-- scheduler.py:126-141: `C` receives from `A` and `B`; `B` has `EveryNCalls(A, 2)`, `C` has
`EveryNCalls(B, 1)`. `A` and `B` are in the same consideration set. -/
def triggerGraph : Graph Nat := [(2, [0, 1])]

def triggerConds : List (Nat × Cond Nat Nat Unit) :=
  [(1, .leaf 0 (.everyNCalls 0 2)), (2, .leaf 1 (.everyNCalls 1 1))]

def trigger (m : Mode) : Sys Nat Nat Unit :=
  withConds ((Sys.new triggerGraph m none 1 demoWorld).alloc 2) triggerConds

def triggerWaits : Nat → List (Nat × Nat)
  | 0 => []
  | 1 => [(0, 2)]
  | _ => [(1, 1)]

def triggerRate : Nat → Nat
  | 0 => 1
  | _ => 2

theorem trigger_nodes (m : Mode) : (trigger m).nodes = [0, 1, 2] := by
  cases m <;> decide +kernel

theorem trigger_rated (m : Mode) : RatedTogether (trigger m) triggerWaits triggerRate id := by
  intro n hn
  rw [trigger_nodes] at hn
  have hq : (trigger .standard).queue = [[0, 1], [2]] := by decide +kernel
  have hq' : (trigger .exactTime).queue = [[0, 1, 2]] := by decide +kernel
  simp only [List.mem_cons, List.not_mem_nil, or_false] at hn
  rcases hn with rfl | rfl | rfl
  · refine ⟨.inr ⟨by cases m <;> rfl, [], by cases m <;> decide +kernel, rfl⟩, rfl, fun x hx => by cases hx⟩
  · refine ⟨.inl ⟨.leaf 0 (.everyNCalls 0 2), by cases m <;> rfl, .every 0 0 2 (by decide) (by cases m <;> exact ⟨by decide, rfl⟩)⟩,
      rfl, fun x hx => ?_⟩
    rw [List.mem_singleton.1 hx, trigger_nodes]
    refine ⟨by decide, by decide, 0, 0, ?_⟩
    cases m
    · rw [hq]; exact ⟨⟨_, rfl, by decide⟩, ⟨_, rfl, by decide⟩, .inr ⟨rfl, by decide⟩⟩
    · rw [hq']; exact ⟨⟨_, rfl, by decide⟩, ⟨_, rfl, by decide⟩, .inr ⟨rfl, by decide⟩⟩
  · refine ⟨.inl ⟨.leaf 1 (.everyNCalls 1 1), by cases m <;> rfl, .every 1 1 1 (by decide) (by cases m <;> exact ⟨by decide, rfl⟩)⟩,
      rfl, fun x hx => ?_⟩
    rw [List.mem_singleton.1 hx, trigger_nodes]
    refine ⟨by decide, by decide, ?_⟩
    cases m
    · rw [hq]; exact ⟨0, 1, ⟨_, rfl, by decide⟩, ⟨_, rfl, by decide⟩, .inl (by decide)⟩
    · rw [hq']; exact ⟨0, 0, ⟨_, rfl, by decide⟩, ⟨_, rfl, by decide⟩, .inr ⟨rfl, by decide⟩⟩

theorem trigger_unused (m : Mode) : Unused (trigger m) none :=
  ⟨by cases m <;> rfl, by cases m <;> rfl, by cases m <;> exact (C81_new triggerGraph _ none 1 demoWorld).clock,
    fun n o c k h => by
      rcases withConds_get? triggerConds ((Sys.new triggerGraph m none 1 demoWorld).alloc 2) n _ h with h | h
      · simp [triggerConds] at h
      · cases h⟩

def triggerThree : RunArgs Nat Nat Unit :=
  { id := none, esu := .leaf 90 (.afterNPasses 3 environment_state_update), seq := .leaf 91 .never }

/-- `C119_passes`, applied in both modes: in exact-time mode `C` is executed with `A` and `B`. -/
example {k : Nat} {h : History Nat Nat Unit} {s : Sys Nat Nat Unit} :
    (exec (trigger .standard) triggerThree k = some (false, h, s, .returned) →
      SamePasses (passYields h) [[[0]], [[0, 1], [2]], [[0]]]) ∧
    (exec (trigger .exactTime) triggerThree k = some (false, h, s, .returned) →
      SamePasses (passYields h) [[[0]], [[0, 1, 2]], [[0]]]) := by
  have hq : (trigger .standard).queue = [[0, 1], [2]] := by decide +kernel
  have hq' : (trigger .exactTime).queue = [[0, 1, 2]] := by decide +kernel
  constructor
  · intro hx
    have := C119_passes (a := triggerThree) (N := 3) (by rw [hq]; decide)
      (fun n => by rw [hq, trigger_nodes]; simp only [List.flatten_cons, List.flatten_nil, List.append_nil,
                     List.mem_append, List.mem_cons, List.not_mem_nil, or_false]; grind)
      (trigger_rated .standard) (trigger_unused .standard) .nil ⟨rfl, rfl⟩ (alone_scripted (exec_reach hx)).1
    rw [hq] at this
    exact this
  · intro hx
    have := C119_passes (a := triggerThree) (N := 3) (by rw [hq']; decide)
      (fun n => by rw [hq', trigger_nodes]; simp only [List.flatten_cons, List.flatten_nil, List.append_nil,
                     List.mem_append, List.mem_cons, List.not_mem_nil, or_false])
      (trigger_rated .exactTime) (trigger_unused .exactTime) .nil ⟨rfl, rfl⟩ (alone_scripted (exec_reach hx)).1
    rw [hq'] at this
    exact this

/-- The runs themselves; with the default termination conditions in the first case
`[{A}, {A, B}, {C}]`, as the documentation says. -/
example : (exec (trigger .standard) triggerThree 200).map (fun r => (passYields r.2.1, r.2.2.2)) =
      some ([[[0]], [[0, 1], [2]], [[0]]], .returned) ∧
    (exec (trigger .exactTime) triggerThree 200).map (fun r => (passYields r.2.1, r.2.2.2)) =
      some ([[[0]], [[0, 1, 2]], [[0]]], .returned) ∧
    (exec (trigger .standard) untilAllHave 200).map (fun r => (yields r.2.1, r.2.2.2)) =
      some ([[0], [0, 1], [2]], .returned) ∧
    (exec (trigger .exactTime) untilAllHave 200).map (fun r => (yields r.2.1, r.2.2.2)) =
      some ([[0], [0, 1, 2]], .returned) := by decide +kernel

/-- `C119_run`, applied. -/
theorem trigger_pattern : ∃ k h s, exec (trigger .standard) untilAllHave k = some (false, h, s, .returned) ∧
    SameSets (yields h) [[0], [0, 1], [2]] := by
  have hH0 := C90_new (κ := Nat) (W := Unit) triggerGraph (by decide) (by
    rcases toposort_spec triggerGraph (by decide) with ⟨_, _, _, _, _, h⟩ | ⟨h, _⟩
    · exact h
    · exact absurd h (by decide)) .standard none 1 demoWorld
  have hq : (trigger .standard).queue = [[0, 1], [2]] := by decide +kernel
  have hw := withConds_like triggerConds ((Sys.new triggerGraph .standard none 1 demoWorld).alloc 2)
  obtain ⟨s1, hs⟩ : ∃ s1, (trigger .standard).start untilAllHave = (s1, .ok false) := by
    have : ((trigger .standard).start untilAllHave).2.toOption = some false := by decide +kernel
    refine ⟨((trigger .standard).start untilAllHave).1, Prod.ext rfl ?_⟩
    generalize ((trigger .standard).start untilAllHave).2 = x at this
    cases x with
    | ok b => simp [Except.toOption] at this; rw [this]
    | error e => cases this
  have := C119_run (a := untilAllHave) (s0 := trigger .standard) (M := 2)
    (by unfold trigger; rw [hw]; exact ⟨hH0.placed, hH0.known, hH0.senders, hH0.acyclic, hH0.synced, hH0.clock⟩)
    (by rw [hq]; decide) (trigger_rated .standard) (trigger_unused .standard) ⟨_, _, rfl, rfl⟩
    (fun n c h => by
      rw [trigger_nodes]
      rcases withConds_get? triggerConds ((Sys.new triggerGraph .standard none 1 demoWorld).alloc 2) n c h with h | h
      · simp only [triggerConds, List.mem_cons, List.not_mem_nil, or_false, Prod.mk.injEq] at h
        rcases h with ⟨rfl, _⟩ | ⟨rfl, _⟩ <;> decide
      · cases h) hs
    (fun n hn => by
      rw [trigger_nodes] at hn
      simp only [List.mem_cons, List.not_mem_nil, or_false] at hn
      rcases hn with rfl | rfl | rfl <;> decide)
  rw [hq, trigger_nodes] at this
  exact this

/-- `C119_exact` is about runs like this one. -/
example : (exec (Sys.new triggerGraph .exactTime none 1 demoWorld) untilAllHave 200).map
    (fun r => (r.1, yields r.2.1, r.2.2.2)) = some (false, [[0, 1, 2]], .returned) := by decide +kernel

/-- `C12_own`: node 2, the owner of object 0, is selected in the run of `demo`. -/
example : 2 ∈ selections (demoAfter 40).1 ∧ ∃ e ∈ (demoAfter 40).1, e.ev = Event.add 2 ∧
    e.before.store.owner 0 = some 2 ∧ 2 ∈ e.before.nodes := by
  refine ⟨by decide +kernel, ?_⟩
  have h : ((demoAfter 40).1.any fun e => decide (e.ev = Event.add 2 ∧
      e.before.store.owner 0 = some 2 ∧ 2 ∈ e.before.nodes)) = true := by
    decide +kernel
  obtain ⟨e, he, hev⟩ := List.any_eq_true.1 h
  exact ⟨e, he, by simpa using hev⟩

end GS.Props
