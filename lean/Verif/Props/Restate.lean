import Verif.RestateStart
import Verif.Props.Reference
import Verif.Props.Rename
/-!
# C83: a schedule depends only on what graph and conditions say

Specification: `Verif/Spec/Restate.lean`, `Verif/Spec/Reference.lean`.
-/

set_option linter.unusedSectionVars false

namespace GS.Props
open Spec TimeScale
variable {α κ W : Type _} [DecidableEq α] [DecidableEq κ]
variable {w : List (List α) → World α κ W} {a a' : RunArgs α κ W} {s0 s0' s s' t t' : Sys α κ W}
variable {h h' : History α κ W} {pc pc' : PC α} {runs runs' : List (List (List (List α)))}
variable {abs abs' : Bool}

theorem places_of_nodup {q : List (List α)} (hq : q.flatten.Nodup) (i j : Nat) (n : α)
    (hi : At q i n) (hj : At q j n) : i = j := by
  obtain ⟨l, hl, hn⟩ := hi
  obtain ⟨m, hm, hn'⟩ := hj
  unfold List.Nodup at hq
  rw [List.pairwise_flatten] at hq
  have hp := hq.2
  rw [List.pairwise_iff_getElem] at hp
  obtain ⟨hil, rfl⟩ := List.getElem?_eq_some_iff.1 hl
  obtain ⟨hjl, rfl⟩ := List.getElem?_eq_some_iff.1 hm
  rcases Nat.lt_trichotomy i j with hlt | e | hlt
  · exact absurd rfl (hp i j hil hjl hlt n hn n hn')
  · exact e
  · exact absurd rfl (hp j i hjl hil hlt n hn' n hn)

theorem all2_perms {xs ys : List (List α)} (h : SameSets xs ys) :
    (∀ x ∈ xs, x.Nodup) → (∀ y ∈ ys, y.Nodup) → Perms xs ys := by
  induction h with
  | nil => intro _ _; exact .nil
  | cons h1 _ ih =>
    intro hx hy
    exact .cons (perm_of_members (hx _ (by simp)) (hy _ (by simp)) h1)
      (ih (fun x k => hx x (by simp [k])) (fun y k => hy y (by simp [k])))

theorem all2_passes {xs ys : List (List (List α))} (h : SamePasses xs ys) :
    (∀ x ∈ xs.flatten, x.Nodup) → (∀ y ∈ ys.flatten, y.Nodup) → All2 Perms xs ys := by
  induction h with
  | nil => intro _ _; exact .nil
  | cons h1 _ ih =>
    intro hx hy
    simp only [List.flatten_cons, List.mem_append] at hx hy
    exact .cons (all2_perms h1 (fun x k => hx x (.inl k)) (fun y k => hy y (.inl k)))
      (ih (fun x k => hx x (.inr k)) (fun y k => hy y (.inr k)))

theorem all2_runs {xs ys : List (List (List (List α)))} (h : SameRuns xs ys) :
    (∀ x ∈ xs.flatten.flatten, x.Nodup) → (∀ y ∈ ys.flatten.flatten, y.Nodup) →
      All2 (All2 Perms) xs ys := by
  induction h with
  | nil => intro _ _; exact .nil
  | cons h1 _ ih =>
    intro hx hy
    simp only [List.flatten_cons, List.flatten_append, List.mem_append] at hx hy
    exact .cons (all2_passes h1 (fun x k => hx x (.inl k)) (fun y k => hy y (.inl k)))
      (ih (fun x k => hx x (.inr k)) (fun y k => hy y (.inr k)))

theorem complete_nodup {id : Option κ} (hc : CompleteRuns id s0 runs s) :
    ∀ x ∈ runs.flatten.flatten, x.Nodup := by
  induction hc with
  | nil => simp
  | world _ _ ih => exact ih
  | run _ _ _ _ hr ih =>
    intro x hx
    simp only [List.flatten_append, List.flatten_singleton, List.mem_append] at hx
    rcases hx with hx | hx
    · exact ih x hx
    · rw [hr.reach.passYields_flatten.1] at hx
      exact hr.reach.yields_nodup x hx

theorem described_bare {st0 : Store α κ} (h0 : st0.fresh = 0) {c : Cond α κ W}
    (hd : Described st0 none c) : ∀ {c' : Cond α κ W}, bare c' = bare c →
      ∀ st : Store α κ, Described st none c' := by
  have list : ∀ {cs cs' : List (Cond α κ W)},
      (∀ c ∈ cs, ∀ {c' : Cond α κ W}, bare c' = bare c → ∀ st : Store α κ, Described st none c') →
      bares cs' = bares cs → ∀ st : Store α κ, ∀ c' ∈ cs', Described st none c' := by
    intro cs cs' hcs e st c' hc'
    rw [bares_map, bares_map] at e
    have : bare c' ∈ cs.map bare := by rw [← e]; exact List.mem_map.2 ⟨c', hc', rfl⟩
    obtain ⟨c, hc, e'⟩ := List.mem_map.1 this
    exact hcs c hc e'.symm st
  induction hd with
  | leaf hk ho =>
    intro c' e st
    cases c' <;> simp only [bare, Cond.leaf.injEq, reduceCtorEq, true_and] at e
    subst e
    refine .leaf hk fun u => ?_
    have := (ho u).1
    rw [h0] at this
    exact absurd this (Nat.not_lt_zero _)
  | whileNot hf =>
    intro c' e st
    cases c' <;> simp only [bare, Cond.whileNot.injEq, reduceCtorEq, true_and] at e
    subst e
    exact .whileNot hf
  | all _ ih =>
    intro c' e st
    cases c' <;> simp only [bare, Cond.all.injEq, reduceCtorEq, true_and] at e
    exact .all (list ih e st)
  | any _ ih =>
    intro c' e st
    cases c' <;> simp only [bare, Cond.any.injEq, reduceCtorEq, true_and] at e
    exact .any (list ih e st)
  | not _ ih =>
    intro c' e st
    cases c' <;> simp only [bare, Cond.not.injEq, reduceCtorEq, true_and] at e
    exact .not (ih e st)

theorem describedEnd_bare (ha : RestatedArgs a a') (hE : DescribedEnd a) : DescribedEnd a' := by
  intro st
  obtain ⟨h1, h2⟩ := hE ⟨fun _ => none, fun _ _ => 0, 0⟩
  exact ⟨described_bare rfl h1 ha.esu st, described_bare rfl h2 ha.seq st⟩

/-- Two schedulers that are described by the reference scheduler and are the same, written down
differently, before runs with the same arguments: whatever happened before was the same, and the
clocks show the same absolute time. -/
structure SameBefore (w : List (List α) → World α κ W) (s0 s0' : Sys α κ W)
    (runs runs' : List (List (List (List α)))) (a a' : RunArgs α κ W) (s s' : Sys α κ W) : Prop where
  restated : Restated s0 s0'
  settled : SetsSettled s0
  places : s0.queue.flatten.Nodup ∧ s0'.queue.flatten.Nodup
  described : DescribedNodes s0 ∧ DescribedNodes s0'
  unused : Unused s0 a.id ∧ Unused s0' a.id
  before : CompleteRuns a.id s0 runs s ∧ CompleteRuns a.id s0' runs' s'
  same : SameRuns runs runs'
  args : RestatedArgs a a'
  endings : DescribedEnd a
  world : s'.world = s.world
  consumer : ∀ ys ys', SameSets ys ys' → w ys' = w ys
  time : (s'.clock a.id).time.absolute = (s.clock a.id).time.absolute
  interval : (s'.clock a.id).time.absolute_interval = (s.clock a.id).time.absolute_interval

theorem perms_nil {xs ys : List (List α)} (h : Perms xs ys) : ys = [] ↔ xs = [] := by
  cases h <;> simp

/-- What the reference scheduler is told. -/
theorem SameBefore.around (hb : SameBefore w s0 s0' runs runs' a a' s s')
    (hs : s.start a = (t, .ok abs)) (hs' : s'.start a' = (t', .ok abs')) :
    abs' = abs ∧ AroundLike s0.queue (aroundOf s w a) (aroundOf s' w a') := by
  have hc := hb.before.1.condsFrom hb.restated.once.1
  have hc' := hb.before.2.condsFrom hb.restated.once.2
  obtain ⟨e1, e2, e3⟩ := hb.restated.startTime hb.args hc hc' hs hs' hb.time hb.interval
  have hl := hb.before.1.like hb.described.1
  have hl' := hb.before.2.like hb.described.2
  have hid := hb.args.id
  have hworld : ∀ {ys ys' : List (List α)}, Perms ys ys' →
      (if ys' = [] then s'.world else w ys') = (if ys = [] then s.world else w ys) := by
    intro ys ys' hp
    rw [hb.world, hb.consumer ys ys' hp.sameSets]
    by_cases hy : ys = []
    · rw [if_pos hy, if_pos ((perms_nil hp).2 hy)]
    · rw [if_neg hy, if_neg fun k => hy ((perms_nil hp).1 k)]
  refine ⟨e1, ?_, fun n hn => ?_, ?_, fun ys ys' hp => ?_, fun ys ys' hp => ?_,
    fun ys ys' f hp hf => ?_, fun ys ys' hp => ?_, ?_⟩
  · show SameMembers s.nodes s'.nodes
    rw [hl.nodes, hl'.nodes]; exact hb.restated.nodes
  · have k1 := (C81_tells s w a (by rw [hl.queue]; exact places_of_nodup hb.places.1)).place
    have k2 := (C81_tells s' w a' (by rw [hl'.queue]; exact places_of_nodup hb.places.2)).place
    obtain ⟨i, l, hi, hnl⟩ := (mem_flatten_at _ _).1 hn
    obtain ⟨l', hi', hll⟩ := hb.restated.queue.get hi
    rw [k1 i n ⟨l, by rw [hl.queue]; exact hi, hnl⟩,
      k2 i n ⟨l', by rw [hl'.queue]; exact hi', (hll n).1 hnl⟩]
  · show decide (s'.mode = .exactTime ∨ s'.queue.length = 1) = decide (s.mode = .exactTime ∨ s.queue.length = 1)
    rw [hc'.mode, hc.mode, hb.restated.mode, hl.queue, hl'.queue, hb.restated.queue.length]
  · funext n
    simp only [aroundOf, hworld hp, hid]
  · funext n x is g
    simp only [aroundOf, hworld hp, hid]
  · simp only [aroundOf, hworld hp, hid]
    rw [hf { s.toView with world := if ys = [] then s.world else w ys }
      { s'.toView with world := if ys = [] then s.world else w ys } a.id none none rfl]
  · have : ys'.length = ys.length := hp.length
    simp only [aroundOf, hs, hs', hid, e2, e3, this, e1]
  · simp only [aroundOf, hs, hs', hid, e3]

theorem SameBefore.reference (hb : SameBefore w s0 s0' runs runs' a a' s s')
    (hs : s.start a = (t, .ok abs)) (hs' : s'.start a' = (t', .ok abs')) (N : Nat) :
    PastLike s0.queue
      (reference abs (rule s0 (aroundOf s w a)) (stop a (aroundOf s w a)) s0.queue N ⟨runs, [], [], []⟩)
      (reference abs (rule s0' (aroundOf s' w a')) (stop a' (aroundOf s' w a')) s0'.queue N
        ⟨runs', [], [], []⟩) := by
  obtain ⟨_, hA⟩ := hb.around hs hs'
  have hR := hb.restated
  have hA' : AroundLike s0'.queue (aroundOf s' w a') (aroundOf s w a) :=
    ⟨fun n => (hA.nodes n).symm, fun n hn => (hA.place n ((hR.queue.memFlat n).2 hn)).symm,
      hA.exact.symm, fun ys ys' hp => (hA.finished ys' ys (hp.symm.mono fun _ _ k => k.symm)).symm,
      fun ys ys' hp => (hA.number ys' ys (hp.symm.mono fun _ _ k => k.symm)).symm,
      fun ys ys' f hp hf => (hA.asks ys' ys f (hp.symm.mono fun _ _ k => k.symm) hf).symm,
      fun ys ys' hp => (hA.time ys' ys (hp.symm.mono fun _ _ k => k.symm)).symm, hA.tick.symm⟩
  refine reference_like hR.queue (hR.climbs hb.settled hb.described.1 hA)
    (hR.symm.climbs (hb.settled.restated hR) hb.described.2 hA') (hb.args.stops hb.endings hA) N _ _
    ⟨all2_runs hb.same (complete_nodup hb.before.1) (complete_nodup hb.before.2), .nil, .nil, ?_⟩ rfl rfl
  intro x hx
  simp [Past.inRun] at hx

theorem SameBefore.told (hb : SameBefore w s0 s0' runs runs' a a' s s') :
    Tells s w a (aroundOf s w a) ∧ Tells s' w a' (aroundOf s' w a') := by
  have hl := hb.before.1.like hb.described.1
  have hl' := hb.before.2.like hb.described.2
  exact ⟨C81_tells s w a (by rw [hl.queue]; exact places_of_nodup hb.places.1),
    C81_tells s' w a' (by rw [hl'.queue]; exact places_of_nodup hb.places.2)⟩

theorem prefix_at {β : Type _} {x y : List β} (h : x <+: y) {i : Nat} {b : β} (hb : x[i]? = some b) :
    y[i]? = some b := by
  obtain ⟨z, rfl⟩ := h
  obtain ⟨hi, rfl⟩ := List.getElem?_eq_some_iff.1 hb
  rw [List.getElem?_append_left hi, List.getElem?_eq_getElem hi]

/-- C83, at any moment: the runs of the two schedulers are both in absolute time or both not,
and at every position they yield sets with the same members; when one of them has returned,
the other one has not yielded more. -/
theorem C83_yields (hb : SameBefore w s0 s0' runs runs' a a' s s')
    (hr : Scripted w a s abs h t pc) (hr' : Scripted w a' s' abs' h' t' pc') :
    abs' = abs ∧
    (∀ (k : Nat) (x y : List α), (yields h)[k]? = some x → (yields h')[k]? = some y →
      SameMembers x y) ∧
    (pc = .returned → (yields h').length ≤ (yields h).length) ∧
    (pc' = .returned → (yields h).length ≤ (yields h').length) := by
  obtain ⟨t1, hs⟩ := scripted_start hr
  obtain ⟨t1', hs'⟩ := scripted_start hr'
  obtain ⟨e1, _⟩ := hb.around hs hs'
  subst e1
  obtain ⟨f1, f2⟩ := hb.told
  have hid := hb.args.id
  have hE' := describedEnd_bare hb.args hb.endings
  have hu' : Unused s0' a'.id := by rw [hid]; exact hb.unused.2
  have hc' : CompleteRuns a'.id s0' runs' s' := by rw [hid]; exact hb.before.2
  let N := max (passes h) (passes h')
  have hP := hb.reference hs hs' N
  have k1 := C81_prefix hb.described.1 hb.unused.1 hb.before.1 hb.endings f1 hr
    (Nat.le_max_left (passes h) (passes h'))
  have k2 := C81_prefix hb.described.2 hu' hc' hE' f2 hr' (Nat.le_max_right (passes h) (passes h'))
  have hB := hP.before.flatten
  refine ⟨rfl, fun k x y hx hy n => (hB.get (prefix_at k1 hx) (prefix_at k2 hy)).mem_iff, ?_, ?_⟩
  · rintro rfl
    have g := (C81_returned hb.described.1 hb.unused.1 hb.before.1 hb.endings f1 hr).2 N
      (Nat.le_max_left _ _)
    have hlen := hB.length
    rw [g] at hlen
    rw [hr.reach.passYields_flatten.1] at hlen
    rw [← hlen]
    exact k2.length_le
  · rintro rfl
    have g := (C81_returned hb.described.2 hu' hc' hE' f2 hr').2 N (Nat.le_max_right _ _)
    have hlen := hB.length
    rw [g] at hlen
    rw [hr'.reach.passYields_flatten.1] at hlen
    rw [hlen]
    exact k1.length_le

/-- C83, when both runs have returned: they consist of the same passes with the same sets, and
the clocks again show the same absolute time. -/
theorem C83_returned (hb : SameBefore w s0 s0' runs runs' a a' s s')
    (hr : Scripted w a s abs h t .returned) (hr' : Scripted w a' s' abs' h' t' .returned) :
    SamePasses (passYields h) (passYields h') ∧
    (t'.clock a.id).time.absolute = (t.clock a.id).time.absolute ∧
    (t'.clock a.id).time.absolute_interval = (t.clock a.id).time.absolute_interval := by
  obtain ⟨t1, hs⟩ := scripted_start hr
  obtain ⟨t1', hs'⟩ := scripted_start hr'
  obtain ⟨e1, _⟩ := hb.around hs hs'
  subst e1
  obtain ⟨f1, f2⟩ := hb.told
  have hid := hb.args.id
  have hE' := describedEnd_bare hb.args hb.endings
  have hu' : Unused s0' a'.id := by rw [hid]; exact hb.unused.2
  have hc' : CompleteRuns a'.id s0' runs' s' := by rw [hid]; exact hb.before.2
  let N := max (passes h) (passes h')
  have hP := hb.reference hs hs' N
  have g := (C81_returned hb.described.1 hb.unused.1 hb.before.1 hb.endings f1 hr).2 N
    (Nat.le_max_left _ _)
  have g' := (C81_returned hb.described.2 hu' hc' hE' f2 hr').2 N (Nat.le_max_right _ _)
  rw [g, g'] at hP
  have hpass : All2 Perms (passYields h) (passYields h') := hP.before
  refine ⟨hpass.mono fun _ _ k => k.sameSets, ?_⟩
  obtain ⟨_, e2, e3⟩ := hb.restated.startTime hb.args (hb.before.1.condsFrom hb.restated.once.1)
    (hb.before.2.condsFrom hb.restated.once.2) hs hs' hb.time hb.interval
  obtain ⟨m1, m2⟩ := hr.reach.timeAt (by rintro _ _ ⟨_, rfl⟩; rfl) hs (by simp) rfl
  obtain ⟨m1', m2'⟩ := hr'.reach.timeAt (by rintro _ _ ⟨_, rfl⟩; rfl) hs' (by simp) rfl
  rw [hid] at m1' m2'
  have hlen : (yields h').length = (yields h).length := by
    rw [← hr.reach.passYields_flatten.1, ← hr'.reach.passYields_flatten.1]
    exact hpass.flatten.length
  rw [m1, m2, m1', m2', e2, e3, hlen]
  exact ⟨rfl, rfl⟩

/-! ## Which schedulers are the same, written down differently -/

theorem sameSets_of_at {q q' : List (List α)} (hq : ∀ l ∈ q, l ≠ []) (hq' : ∀ l ∈ q', l ≠ [])
    (h : ∀ i n, At q i n ↔ At q' i n) : SameSets q q' := by
  induction q generalizing q' with
  | nil =>
    cases q' with
    | nil => exact .nil
    | cons l q' =>
      obtain ⟨n, hn⟩ := List.exists_mem_of_ne_nil l (hq' l (by simp))
      obtain ⟨m, hm, _⟩ := (h 0 n).2 ⟨l, rfl, hn⟩
      simp at hm
  | cons l q ih =>
    cases q' with
    | nil =>
      obtain ⟨n, hn⟩ := List.exists_mem_of_ne_nil l (hq l (by simp))
      obtain ⟨m, hm, _⟩ := (h 0 n).1 ⟨l, rfl, hn⟩
      simp at hm
    | cons l' q' =>
      refine .cons (fun n => ?_) (ih (fun x hx => hq x (by simp [hx])) (fun x hx => hq' x (by simp [hx]))
        fun i n => ?_)
      · have := h 0 n
        simpa [At] using this
      · have := h (i + 1) n
        simpa [At] using this

/-- Schedulers for graphs with the same nodes and the same edges are the same, written down
differently: the order of the nodes in the dict and of the senders in the sets does not
matter, nor whether a node without senders is given. -/
theorem C83_new {g g' : Graph α} (hg : Dict.WF g) (hg' : Dict.WF g') (hs : SameGraph g g')
    (hc : ¬ HasCycle g) (mode : Mode) (id : Option κ) (unit : Rat) (x x' : World α κ W) :
    Restated (Sys.new g mode id unit x) (Sys.new g' mode id unit x') := by
  have hc' : ¬ HasCycle g' := fun k => hc (hs.cycle.2 k)
  have hnodes : SameMembers (Dict.keys (baseGraph g)) (Dict.keys (baseGraph g')) := by
    intro n
    rw [baseGraph_keys g hg, baseGraph_keys g' hg', hs.nodes]
  refine ⟨hnodes, fun n => ?_, ?_, fun n => rfl, ⟨by simp [Sys.new, Dict.WF, Dict.keys],
    by simp [Sys.new, Dict.WF, Dict.keys]⟩, rfl, rfl⟩
  · show (∀ y, Dict.get? (baseGraph g) n = some y → ∃ z, Dict.get? (baseGraph g') n = some z ∧ _) ∧
      (Dict.get? (baseGraph g) n = none → Dict.get? (baseGraph g') n = none)
    constructor
    · intro y hy
      have : n ∈ Dict.keys (baseGraph g') :=
        (hnodes n).1 ((Dict.get?_isSome ..).1 (by rw [hy]; rfl))
      obtain ⟨z, hz⟩ := Option.isSome_iff_exists.1 ((Dict.get?_isSome ..).2 this)
      refine ⟨z, hz, fun d => ?_⟩
      have e1 := (baseGraph_edge g hg d n).symm.trans (edge_iff_get? (baseGraph_wf g) d n)
      have e2 := (baseGraph_edge g' hg' d n).symm.trans (edge_iff_get? (baseGraph_wf g') d n)
      have e3 := e1.symm.trans ((hs.edges d n).trans e2)
      rw [hy, hz] at e3
      simpa using e3
    · intro hy
      cases hz : Dict.get? (baseGraph g') n with
      | none => rfl
      | some z =>
        have : n ∈ Dict.keys (baseGraph g) :=
          (hnodes n).2 ((Dict.get?_isSome ..).1 (by rw [hz]; rfl))
        have := (Dict.get?_isSome ..).2 this
        rw [hy] at this; cases this
  · cases mode with
    | exactTime =>
      show SameSets [Dict.keys (baseGraph g)] [Dict.keys (baseGraph g')]
      exact .cons hnodes .nil
    | standard =>
      show SameSets (queueOf (baseGraph g)) (queueOf (baseGraph g'))
      obtain ⟨_, k1, k2, _⟩ := queue_ok g hg hc
      obtain ⟨_, k1', k2', _⟩ := queue_ok g' hg' hc'
      refine sameSets_of_at (fun l hl => (k1 l hl).1) (fun l hl => (k1' l hl).1) fun i n => ?_
      rw [k2, k2', hs.chain, hs.chain]

/-- Giving a node conditions that say the same leaves them the same. -/
theorem C83_add (hR : Restated s0 s0') (n : α) {c c' : Cond α κ W} (hc : bare c' = bare c)
    (k k' : Nat) : Restated ((s0.alloc k).addBasic n c) ((s0'.alloc k').addBasic n c') := by
  refine ⟨hR.nodes, hR.senders, hR.queue, fun m => ?_, ⟨?_, ?_⟩, hR.mode, hR.unit⟩
  · show (Dict.get? (Dict.set s0'.conds n c') m).map bare = (Dict.get? (Dict.set s0.conds n c) m).map bare
    rw [Dict.get?_set, Dict.get?_set]
    split
    · simp [hc]
    · exact hR.conds m
  · exact Dict.WF.set hR.once.1 n c
  · exact Dict.WF.set hR.once.2 n c'

/-- The order in which nodes are given their conditions does not matter. -/
theorem C83_order (hw : Dict.WF s0.conds) {n m : α} (hnm : n ≠ m) (c d : Cond α κ W) :
    Restated ((s0.addBasic n c).addBasic m d) ((s0.addBasic m d).addBasic n c) := by
  refine ⟨fun _ => Iff.rfl, fun x => ⟨fun y hy => ⟨y, hy, fun _ => Iff.rfl⟩, fun h => h⟩, .refl _,
    fun x => ?_, ⟨?_, ?_⟩, rfl, rfl⟩
  · show (Dict.get? (Dict.set (Dict.set s0.conds m d) n c) x).map bare =
      (Dict.get? (Dict.set (Dict.set s0.conds n c) m d) x).map bare
    simp only [Dict.get?_set]
    by_cases h1 : n = x
    · subst h1; rw [if_pos rfl, if_neg (fun e => hnm e.symm), if_pos rfl]
    · rw [if_neg h1, if_neg h1]
  · exact Dict.WF.set (Dict.WF.set hw n c) m d
  · exact Dict.WF.set (Dict.WF.set hw m d) n c

/-- In a scheduler without conditions the order inside sets does not matter. -/
theorem C83_new_settled (g : Graph α) (hg : Dict.WF g) (hc : ¬ HasCycle g) (id : Option κ)
    (unit : Rat) (x : World α κ W) : SetsSettled (Sys.new g .standard id unit x) := by
  intro n hn
  refine ⟨fun c hc => by simp [Sys.new] at hc, fun _ ds hds d hd l hl hnl hdl => ?_⟩
  have hedge : Edge g d n :=
    (baseGraph_edge g hg d n).1 ((edge_iff_get? (baseGraph_wf g) d n).2 ⟨ds, hds, hd⟩)
  refine Classical.byContradiction fun hne => ?_
  exact C02_no_edge_inside g hg hc l hl d n hdl hnl hne hedge

/-- New schedulers for the same graph without conditions: all hypotheses of `C83_yields` hold. -/
theorem C83_new_before {g g' : Graph α} (hg : Dict.WF g) (hg' : Dict.WF g') (hs : SameGraph g g')
    (hc : ¬ HasCycle g) (hse : ∀ n, ¬ Edge g n n) (unit : Rat) (x : World α κ W)
    (hw : ∀ ys ys', SameSets ys ys' → w ys' = w ys) (ha : RestatedArgs a a') (hE : DescribedEnd a) :
    SameBefore w (Sys.new g .standard a.id unit x) (Sys.new g' .standard a.id unit x) [] [] a a'
      (Sys.new g .standard a.id unit x) (Sys.new g' .standard a.id unit x) :=
  have hc' : ¬ HasCycle g' := fun k => hc (hs.cycle.2 k)
  { restated := C83_new hg hg' hs hc .standard a.id unit x x
    settled := C83_new_settled g hg hc a.id unit x
    places := ⟨(C01_partition g hg hc).2.1, (C01_partition g' hg' hc').2.1⟩
    described := ⟨C81_new_described g hg hc hse .standard a.id unit x,
      C81_new_described g' hg' hc' (fun n k => hse n ((hs.edges n n).2 k)) .standard a.id unit x⟩
    unused := ⟨C81_new g .standard a.id unit x, C81_new g' .standard a.id unit x⟩
    before := ⟨.nil, .nil⟩
    same := .nil
    args := ha
    endings := hE
    world := rfl
    consumer := hw
    time := by rw [Sys.new_clock, Sys.new_clock]
    interval := by rw [Sys.new_clock, Sys.new_clock] }

/-! ## Symmetric nodes -/

/-- C83: nodes that a symmetry of the scheduler exchanges always execute together. `r` is a
symmetry when exchanging the nodes as it says gives the same scheduler, written down
differently, and the same consumer. -/
theorem C83_symmetric (r : Renaming α α) (hw : renameConsumer r w = w)
    (hb : SameBefore w s0 (renameSys r s0) [] [] a (renameArgs r a) s0 (renameSys r s0))
    (hr : Scripted w a s0 abs h t pc) (k : Nat) (x : List α) (hx : (yields h)[k]? = some x) (n : α) :
    n ∈ x ↔ r.to n ∈ x := by
  have k1 := (C82_run r).1 hr
  rw [hw] at k1
  have hx' : (yields (renameHistory r h))[k]? = some (x.map r.to) := by
    rw [yields_rename]
    unfold renameSets
    rw [List.getElem?_map, hx]; rfl
  have k2 := (C83_yields hb hr k1).2.1 k x (x.map r.to) hx hx'
  rw [k2 (r.to n)]
  constructor
  · intro hn; exact List.mem_map.2 ⟨n, hn, rfl⟩
  · intro hn
    obtain ⟨m, hm, e⟩ := List.mem_map.1 hn
    have : m = n := by rw [← r.back_to m, e, r.back_to]
    exact this ▸ hm

/-! ## A concrete case -/

/-- Node 1 executes after two calls of node 0, with which it is considered; node 2 executes
every second call of node 0, at most twice. -/
def resA : Sys Nat Nat Unit :=
  (((Sys.new [(0, []), (1, []), (2, [0, 1]), (3, [2])] .standard none 1 demoWorld).alloc 3).addBasic 1
    (.leaf 0 (.afterNCalls 0 2 .life))).addBasic 2 (.nwhen 1 (.leaf 2 (.everyNCalls 0 2)) 2)

/-- The same, written down differently: node 1 is considered before node 0. -/
def resB : Sys Nat Nat Unit :=
  (((Sys.new [(3, [2]), (2, [1, 0]), (1, [])] .standard none 1 demoWorld).alloc 5).addBasic 2
    (.nwhen 4 (.leaf 2 (.everyNCalls 0 2)) 2)).addBasic 1 (.leaf 3 (.afterNCalls 0 2 .life))

def resArgs : RunArgs Nat Nat Unit :=
  { id := none, esu := .leaf 20 (.afterNPasses 6 .environment_state_update), seq := .leaf 23 .never }

def resArgs' : RunArgs Nat Nat Unit :=
  { id := none, esu := .leaf 30 (.afterNPasses 6 .environment_state_update), seq := .leaf 31 .never }

def resRunA := scriptAfter constWorld resArgs resA 300
def resRunB := scriptAfter constWorld resArgs' resB 300

theorem res_runs :
    passYields resRunA.1 =
      [[[0]], [[0, 1], [2], [3]], [[0, 1]], [[0, 1], [2], [3]], [[0, 1]], [[0, 1]]] ∧
    passYields resRunB.1 =
      [[[0]], [[0, 1], [2], [3]], [[1, 0]], [[1, 0], [2], [3]], [[1, 0]], [[1, 0]]] ∧
    resRunA.2.2 = .returned ∧ resRunB.2.2 = .returned := by decide +kernel

theorem resA_queue : resA.queue = [[0, 1], [2], [3]] := by decide +kernel
theorem resB_queue : resB.queue = [[1, 0], [2], [3]] := by decide +kernel

theorem res_graphs : resA.graph = [(0, []), (1, []), (2, [0, 1]), (3, [2])] ∧
    resB.graph = [(2, [1, 0]), (1, []), (0, []), (3, [2])] := by decide +kernel

theorem res_conds (n : Nat) :
    Dict.get? resA.conds n = (if n = 1 then some (.leaf 0 (.afterNCalls 0 2 .life)) else
      if n = 2 then some (.nwhen 1 (.leaf 2 (.everyNCalls 0 2)) 2) else none) ∧
    Dict.get? resB.conds n = (if n = 1 then some (.leaf 3 (.afterNCalls 0 2 .life)) else
      if n = 2 then some (.nwhen 4 (.leaf 2 (.everyNCalls 0 2)) 2) else none) := by
  match n with
  | 0 | 1 | 2 => exact ⟨rfl, rfl⟩
  | n + 3 => exact ⟨rfl, rfl⟩

theorem res_restated : Restated resA resB := by
  refine ⟨fun n => ?_, fun n => ?_, ?_, fun n => ?_, ⟨by decide +kernel, by decide +kernel⟩, rfl, rfl⟩
  · show n ∈ Dict.keys resA.graph ↔ n ∈ Dict.keys resB.graph
    rw [res_graphs.1, res_graphs.2]
    simp [Dict.keys]; omega
  · rw [res_graphs.1, res_graphs.2]
    match n with
    | 0 => exact ⟨fun x hx => by cases hx; exact ⟨_, rfl, fun _ => Iff.rfl⟩, fun h => by cases h⟩
    | 1 => exact ⟨fun x hx => by cases hx; exact ⟨_, rfl, fun _ => Iff.rfl⟩, fun h => by cases h⟩
    | 2 => exact ⟨fun x hx => by cases hx; exact ⟨_, rfl, fun d => by simp; omega⟩, fun h => by cases h⟩
    | 3 => exact ⟨fun x hx => by cases hx; exact ⟨_, rfl, fun _ => Iff.rfl⟩, fun h => by cases h⟩
    | n + 4 => exact ⟨fun x hx => by simp [Dict.get?] at hx, fun _ => by simp [Dict.get?]⟩
  · rw [resA_queue, resB_queue]
    exact .cons (fun d => by simp; omega) (.refl _)
  · rw [(res_conds n).1, (res_conds n).2]
    split
    · rfl
    · split <;> rfl

theorem res_described : DescribedNodes resA ∧ DescribedNodes resB := by
  constructor
  · intro n hn
    have : n = 0 ∨ n = 1 ∨ n = 2 ∨ n = 3 := by
      rw [resA_queue] at hn; simpa using hn
    rcases this with rfl | rfl | rfl | rfl
    · exact ⟨by decide +kernel, .inr (.inr ⟨by rfl, [], by decide +kernel, by simp⟩)⟩
    · exact ⟨by decide +kernel, .inl ⟨_, rfl, .leaf (.inl (by decide)) fun e => e.elim⟩⟩
    · refine ⟨by decide +kernel, .inr (.inl ⟨_, _, _, rfl, .leaf rfl
        fun _ => ⟨by decide +kernel, by decide +kernel⟩, by decide +kernel, fun m c' k' h => ?_⟩)⟩
      rw [(res_conds m).1] at h
      split at h
      · cases h
      · split at h
        · assumption
        · cases h
    · exact ⟨by decide +kernel, .inr (.inr ⟨by rfl, [2], by decide +kernel, by decide +kernel⟩)⟩
  · intro n hn
    have : n = 0 ∨ n = 1 ∨ n = 2 ∨ n = 3 := by
      rw [resB_queue] at hn; simp at hn; omega
    rcases this with rfl | rfl | rfl | rfl
    · exact ⟨by decide +kernel, .inr (.inr ⟨by rfl, [], by decide +kernel, by simp⟩)⟩
    · exact ⟨by decide +kernel, .inl ⟨_, rfl, .leaf (.inl (by decide)) fun e => e.elim⟩⟩
    · refine ⟨by decide +kernel, .inr (.inl ⟨_, _, _, rfl, .leaf rfl
        fun _ => ⟨by decide +kernel, by decide +kernel⟩, by decide +kernel, fun m c' k' h => ?_⟩)⟩
      rw [(res_conds m).2] at h
      split at h
      · cases h
      · split at h
        · assumption
        · cases h
    · exact ⟨by decide +kernel, .inr (.inr ⟨by rfl, [2], by decide +kernel, by decide +kernel⟩)⟩

theorem res_settled : SetsSettled resA := by
  intro n hn
  have : n = 0 ∨ n = 1 ∨ n = 2 ∨ n = 3 := by
    rw [resA_queue] at hn; simpa using hn
  rw [(res_conds n).1, resA_queue, res_graphs.1]
  rcases this with rfl | rfl | rfl | rfl
  · exact ⟨fun c h => (by cases h), fun _ ds h => by cases h; simp⟩
  · exact ⟨fun c h => (by cases h; exact ⟨fun _ => trivial, fun h => by cases h⟩), fun h => by cases h⟩
  · refine ⟨fun c h => ?_, fun h => by cases h⟩
    cases h
    refine ⟨fun _ => ?_, fun h => by cases h⟩
    show Aside [[0, 1], [2], [3]] 2 0
    simp [Aside]
  · refine ⟨fun c h => (by cases h), fun _ ds h => ?_⟩
    cases h
    simp [Aside]

theorem res_end : DescribedEnd resArgs :=
  fun st => ⟨.leaf (by show 1 < 2; decide) fun e => e.elim, .leaf trivial fun e => e.elim⟩

theorem res_before : SameBefore constWorld resA resB [] [] resArgs resArgs' resA resB :=
  { restated := res_restated
    settled := res_settled
    places := by rw [resA_queue, resB_queue]; decide
    described := res_described
    unused := ⟨⟨by rfl, by rfl, .new, fun _ _ _ _ _ => by rfl⟩,
      ⟨by rfl, by rfl, .new, fun _ _ _ _ _ => by rfl⟩⟩
    before := ⟨.nil, .nil⟩
    same := .nil
    args := ⟨rfl, rfl, rfl, rfl⟩
    endings := res_end
    world := rfl
    consumer := fun _ _ _ => rfl
    time := rfl
    interval := rfl }

/-- The hypotheses hold for these two schedulers, and both runs return. In the second pass node
1 is considered in `resB` while node 0 has been called once, and chosen when it is
considered again. -/
example : SameBefore constWorld resA resB [] [] resArgs resArgs' resA resB ∧
    Scripted constWorld resArgs resA false resRunA.1 resRunA.2.1 .returned ∧
    Scripted constWorld resArgs' resB false resRunB.1 resRunB.2.1 .returned ∧
    SamePasses (passYields resRunA.1) (passYields resRunB.1) := by
  have k1 := scriptAfter_scripted (w := constWorld) (a := resArgs) (s0 := resA) (abs := false)
    (by decide +kernel) 300
  have k2 := scriptAfter_scripted (w := constWorld) (a := resArgs') (s0 := resB) (abs := false)
    (by decide +kernel) 300
  have e1 : (scriptAfter constWorld resArgs resA 300).2.2 = .returned := res_runs.2.2.1
  have e2 : (scriptAfter constWorld resArgs' resB 300).2.2 = .returned := res_runs.2.2.2
  rw [e1] at k1
  rw [e2] at k2
  exact ⟨res_before, k1, k2, (C83_returned res_before k1 k2).1⟩

/-- Nodes 0 and 1 exchanged. -/
def exchange01 (n : Nat) : Nat := if n = 0 then 1 else if n = 1 then 0 else n

theorem exchange01_twice (n : Nat) : exchange01 (exchange01 n) = n := by
  match n with
  | 0 | 1 => rfl
  | n + 2 => simp [exchange01]

def swap01 : Renaming Nat Nat := ⟨exchange01, exchange01, exchange01_twice, exchange01_twice⟩

/-- A graph in which nodes 0 and 1 have the same place. -/
def symG : Graph Nat := [(0, []), (1, []), (2, [0, 1])]

theorem symG_same : SameGraph symG (renameGraph swap01 symG) := by
  have e : renameGraph swap01 symG = [(1, []), (0, []), (2, [1, 0])] := by decide +kernel
  rw [e]
  constructor
  · intro n; simp [IsNode, symG]; omega
  · intro d n
    simp [Edge, symG]
    grind

/-- Nodes 0 and 1 of this graph execute together, whatever the run does. -/
example {h : History Nat Nat Unit} {t : Sys Nat Nat Unit} {pc : PC Nat}
    (hr : Scripted constWorld resArgs (Sys.new symG .standard none 1 demoWorld) abs h t pc) (k : Nat)
    (x : List Nat) (hx : (yields h)[k]? = some x) : 0 ∈ x ↔ 1 ∈ x := by
  have hn : renameSys swap01 (Sys.new symG .standard (none : Option Nat) 1 demoWorld) =
      Sys.new (renameGraph swap01 symG) .standard none 1 demoWorld :=
    (C82_new swap01 symG .standard none 1 demoWorld).symm
  have hc : ¬ HasCycle symG := by
    rcases toposort_spec symG (by decide) with ⟨_, _, _, _, _, h⟩ | ⟨h, _⟩
    · exact h
    · exact absurd h (by decide)
  refine C83_symmetric swap01 rfl ?_ hr k x hx 0
  rw [hn]
  exact C83_new_before (a := resArgs) (by decide) (by decide +kernel) symG_same hc
    (by simp [Edge, symG]) 1 demoWorld (fun _ _ _ => rfl) ⟨rfl, rfl, rfl, rfl⟩ res_end

end GS.Props
