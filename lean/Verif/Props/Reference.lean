import Verif.ReferenceFit
import Verif.NPasses
import Verif.Props.Order
import Verif.Props.Session
/-!
# C81: the reference scheduler

Specification: `Verif/Spec/Reference.lean`. The theorems hold for runs in absolute time
(`abs = true`) and for other runs.
-/

set_option linter.unusedSectionVars false

namespace GS.Props
open Spec TimeScale
variable {α κ W : Type _} [DecidableEq α] [DecidableEq κ]
variable {w : List (List α) → World α κ W} {a : RunArgs α κ W} {s0 s t : Sys α κ W}
variable {h : History α κ W} {pc : PC α} {runs : List (List (List (List α)))}
variable {e : Around α κ W} {abs : Bool}

/-- The reference scheduler never takes back what it has yielded. -/
theorem C81_monotone (abs : Bool) (R : α → Past α → Bool) (T : Past α → Bool) (q : List (List α)) (p : Past α)
    {M N : Nat} (hMN : M ≤ N) :
    (reference abs R T q M p).before.flatten <+: (reference abs R T q N p).before.flatten := by
  obtain ⟨k, rfl⟩ := Nat.exists_eq_add_of_le hMN
  induction k with
  | zero => exact List.prefix_refl _
  | succ k ih =>
    refine (ih (Nat.le_add_right _ _)).trans ?_
    rw [← Nat.add_assoc, reference_succ]
    split
    · exact List.prefix_refl _
    · simp only [closePass]
      rw [(passFrom_frame _ _).2.1]
      simp

/-- C81, at any moment of a run: the sets yielded so far are the first ones the reference
scheduler yields. `runs` are the sets of the earlier runs under the execution id. -/
theorem C81_prefix (hd : DescribedNodes s0) (hu : Unused s0 a.id) (hc : CompleteRuns a.id s0 runs s)
    (hE : DescribedEnd a) (hfin : Tells s w a e) (hr : Scripted w a s abs h t pc)
    {N : Nat} (hN : passes h ≤ N) :
    yields h <+: (reference abs (rule s0 e) (stop a e) s0.queue N ⟨runs, [], [], []⟩).before.flatten := by
  have hl := hc.like hd
  have k := (hr.refAt (hl.fits (hc.stands hu) (hc.sat hd hu) hE hfin)).prefix hr.reach.passYields_flatten.1
  rw [hl.queue, passYields_passes hr.reach] at k
  exact k.trans (C81_monotone _ _ _ _ _ hN)

/-- C81, when a pass has ended: the sets of every pass are those of the reference scheduler. -/
theorem C81_passes (hd : DescribedNodes s0) (hu : Unused s0 a.id) (hc : CompleteRuns a.id s0 runs s)
    (hE : DescribedEnd a) (hfin : Tells s w a e) (hr : Scripted w a s abs h t .outer) :
    reference abs (rule s0 e) (stop a e) s0.queue (passes h) ⟨runs, [], [], []⟩ =
      ⟨runs, passYields h, [], []⟩ := by
  have hl := hc.like hd
  have k := hr.refAt (hl.fits (hc.stands hu) (hc.sat hd hu) hE hfin)
  rw [hl.queue] at k
  rw [← passYields_passes hr.reach]
  exact k

/-- C81, when the run has ended: the reference scheduler ends with the same passes and the
same sets in them; it has decided to stop, too. -/
theorem C81_returned (hd : DescribedNodes s0) (hu : Unused s0 a.id)
    (hc : CompleteRuns a.id s0 runs s) (hE : DescribedEnd a) (hfin : Tells s w a e)
    (hr : Scripted w a s abs h t .returned) :
    stop a e ⟨runs, passYields h, [], []⟩ = true ∧
    ∀ N, passes h ≤ N →
      reference abs (rule s0 e) (stop a e) s0.queue N ⟨runs, [], [], []⟩ =
        ⟨runs, passYields h, [], []⟩ := by
  have hl := hc.like hd
  have k := hr.refAt (hl.fits (hc.stands hu) (hc.sat hd hu) hE hfin)
  rw [hl.queue] at k
  obtain ⟨k1, k2⟩ := k
  rw [passYields_passes hr.reach] at k1
  refine ⟨k2, fun N hN => ?_⟩
  obtain ⟨d, rfl⟩ := Nat.exists_eq_add_of_le hN
  clear hN
  induction d with
  | zero => exact k1
  | succ d ih => rw [← Nat.add_assoc, reference_succ, ih, if_pos k2]

/-- Nothing has happened under the default execution id of a new scheduler. -/
theorem C81_new (g : Graph α) (mode : Mode) (id : Option κ) (unit : Rat) (x : World α κ W) :
    Unused (Sys.new g mode id unit x) id := by
  refine ⟨by simp [Sys.new, Dict.get?], by simp [Sys.new, Dict.get?], ?_, fun _ _ _ _ h => by cases h⟩
  have k := Sys.new_clock g mode id unit x id
  rw [k]; exact .new

/-- A new scheduler for an acyclic graph without self-edges is described. -/
theorem C81_new_described (g : Graph α) (hg : Dict.WF g) (hc : ¬ HasCycle g)
    (hse : ∀ n, ¬ Edge g n n) (mode : Mode) (id : Option κ) (unit : Rat) (x : World α κ W) :
    DescribedNodes (Sys.new g mode id unit x) := by
  intro n hn
  have hkey : ∀ m, m ∈ (Sys.new g mode id unit x).nodes ↔ IsNode g m := baseGraph_keys g hg
  have hn : IsNode g n := by
    cases mode with
    | exactTime => exact (hkey n).1 (by simpa [Sys.new] using hn)
    | standard =>
      have hq : (Sys.new g .standard id unit x).queue = queueOf (baseGraph g) := rfl
      rw [hq] at hn
      obtain ⟨l, hl, hnl⟩ := List.mem_flatten.1 hn
      obtain ⟨i, hi, hil⟩ := List.getElem_of_mem hl
      exact chain_isNode (((queue_ok g hg hc).2.2.1 i n).1
        ⟨l, by rw [List.getElem?_eq_getElem hi, hil], hnl⟩).1
  have hm := (hkey n).2 hn
  refine ⟨hm, .inr (.inr ⟨rfl, ?_⟩)⟩
  have hk : (Dict.get? (baseGraph g) n).isSome = true := (Dict.get?_isSome ..).2 hm
  obtain ⟨ds, hds⟩ := Option.isSome_iff_exists.1 hk
  refine ⟨ds, hds, fun d hd => ?_⟩
  have he : Edge g d n :=
    (baseGraph_edge g hg d n).1 ((edge_iff_get? (baseGraph_wf g) d n).2 ⟨ds, hds, hd⟩)
  refine ⟨(hkey d).2 ?_, fun e => hse n (e ▸ he)⟩
  obtain ⟨p, hp, _, hdp⟩ := he
  exact .inr ⟨p, hp, hdp⟩

/-- What the scheduler and the consumer tell. -/
def aroundOf (s : Sys α κ W) (w : List (List α) → World α κ W) (a : RunArgs α κ W) :
    Around α κ W :=
  { nodes := s.nodes
    place := fun n => s.queue.findIdx fun l => decide (n ∈ l)
    exact := decide (s.mode = .exactTime ∨ s.queue.length = 1)
    finished := fun ys n => match (if ys = [] then s.world else w ys).finished n a.id with
      | .ok b => b
      | .error _ => false
    number := fun ys n x is g =>
      match thresholdValue (if ys = [] then s.world else w ys) a.id n x is g with
      | .ok r => r
      | .error _ => 0
    asks := fun ys f =>
      match f { s.toView with world := if ys = [] then s.world else w ys } a.id none with
      | .ok b => b
      | .error _ => false
    tick := ((s.start a).1.clock a.id).time.absolute_interval
    time := fun ys => ((s.start a).1.clock a.id).time.absolute +
      match (s.start a).2 with
      | .ok true => ys.length * ((s.start a).1.clock a.id).time.absolute_interval
      | _ => 0 }

/-- Whatever the consumer does, there is something the reference scheduler can be told (if no
node is in two consideration sets, as in every queue the scheduler makes). -/
theorem C81_tells (s : Sys α κ W) (w : List (List α) → World α κ W) (a : RunArgs α κ W)
    (hq : ∀ i j n, At s.queue i n → At s.queue j n → i = j) : Tells s w a (aroundOf s w a) := by
  refine ⟨rfl, fun i n hi => ?_, by simp [aroundOf], fun ys n b hb => ?_, fun ys n x is g r hr => ?_,
    fun ys f v o b hf hv hb => ?_, fun t abs ht => ?_⟩
  · refine hq _ _ n ?_ hi
    obtain ⟨l, hl, hn⟩ := hi
    have hlt : s.queue.findIdx (fun l => decide (n ∈ l)) < s.queue.length :=
      List.findIdx_lt_length_of_exists ⟨l, List.mem_of_getElem? hl, by simpa using hn⟩
    refine ⟨s.queue[s.queue.findIdx (fun l => decide (n ∈ l))], ?_, ?_⟩
    · exact List.getElem?_eq_getElem hlt
    · simpa using List.findIdx_getElem (w := hlt)
  · simp [aroundOf, hb]
  · simp [aroundOf, hr]
  · have := hf { s.toView with world := if ys = [] then s.world else w ys } v a.id none o hv
    rw [hb] at this
    simp [aroundOf, ← this]
  · simp only [aroundOf, ht]
    refine ⟨trivial, fun ys => ?_⟩
    cases abs <;> rfl

/-! ## A concrete case -/

/-- Five passes a run, unless node 3 is finished earlier. -/
def refArgs : RunArgs Nat Nat Unit :=
  { id := none
    esu := .any 20 [.leaf 21 (.afterNPasses 5 .environment_state_update), .leaf 22 (.whenFinished 3)]
    seq := .leaf 23 .never }

/-- The consumer's nodes: node 3 is finished from the fourth set of the run on. -/
def refWorld (ys : List (List Nat)) : World Nat Nat Unit :=
  { demoWorld with finished := fun n _ => .ok (n == 3 && 4 ≤ ys.length) }

def refSys : Sys Nat Nat Unit := { orderDemo with world := refWorld [] }

def refFirst := scriptAfter refWorld refArgs refSys 200

/-- Before the second run the consumer resets the nodes. -/
def refMid : Sys Nat Nat Unit := { refFirst.2.1 with world := refWorld [] }

def refSecond := scriptAfter refWorld refArgs refMid 200

theorem refFirst_run : passYields refFirst.1 = [[[0, 2]], [[0, 1, 2], [3]], [[0, 1, 2]]] ∧
    refFirst.2.2 = .returned := by decide +kernel

theorem refSecond_run : passYields refSecond.1 = [[[0, 1, 2]], [[0, 1, 2], [3]], [[0, 1, 2]]] ∧
    refSecond.2.2 = .returned := by decide +kernel

theorem ref_places {s : Sys Nat Nat Unit} (hs : s.queue = [[0, 1, 2], [3]]) (i j n : Nat)
    (hi : At s.queue i n) (hj : At s.queue j n) : i = j := by
  rw [hs] at hi hj
  obtain ⟨l, hl, hn⟩ := hi
  obtain ⟨m, hm, hn'⟩ := hj
  match i, j with
  | 0, 0 | 1, 1 => rfl
  | 0, 1 | 1, 0 => simp at hl hm; subst hl hm; simp at hn hn'; omega
  | i + 2, _ => simp at hl
  | _, j + 2 => simp at hm

/-- The condition is not `NWhen`. -/
def isNWhen : Cond Nat Nat Unit → Bool
  | .nwhen _ _ _ => true
  | _ => false

theorem noNWhen_sat {s : Sys Nat Nat Unit} (hs : s.conds.all (fun x => !isNWhen x.2) = true)
    {P : OId → Prop} (n : Nat) (o : OId) (c : Cond Nat Nat Unit) (k : Int)
    (h : Dict.get? s.conds n = some (.nwhen o c k)) : P o := by
  have := List.all_eq_true.1 hs _ (Dict.mem_of_get? h)
  simp [isNWhen] at this

theorem ref_conds : refSys.conds.all (fun x => !isNWhen x.2) = true := by decide +kernel

theorem ref_described : DescribedNodes refSys := by
  intro n hn
  have : n = 0 ∨ n = 1 ∨ n = 2 ∨ n = 3 := by
    have e : refSys.queue.flatten = [0, 1, 2, 3] := by decide +kernel
    rw [e] at hn; simpa using hn
  rcases this with rfl | rfl | rfl | rfl
  · exact ⟨by decide +kernel, .inr (.inr ⟨by rfl, [], by decide +kernel, by simp⟩)⟩
  · refine ⟨by decide +kernel, .inl ⟨_, rfl, .any ?_⟩⟩
    intro c hc
    rcases List.mem_cons.1 hc with rfl | hc
    · exact .leaf (.inl (by decide)) (fun e => e.elim)
    · rw [List.mem_singleton] at hc
      subst hc
      exact .leaf (.inr ⟨rfl, rfl⟩) (fun e => e.elim)
  · exact ⟨by decide +kernel, .inr (.inr ⟨by rfl, [], by decide +kernel, by simp⟩)⟩
  · refine ⟨by decide +kernel, .inl ⟨_, rfl, .leaf rfl ?_⟩⟩
    intro _
    exact ⟨by decide +kernel, by decide +kernel⟩

theorem ref_end : DescribedEnd refArgs := by
  intro st
  refine ⟨.any ?_, .leaf trivial (fun e => e.elim)⟩
  intro c hc
  rcases List.mem_cons.1 hc with rfl | hc
  · exact .leaf (by show 1 < 2; decide) (fun e => e.elim)
  · rw [List.mem_singleton] at hc
    subst hc
    exact .leaf trivial (fun e => e.elim)

/-- The hypotheses hold for the second run of this scheduler, and the reference scheduler
really yields what the run yields: in its second run node 1 is due at once, since node 0 has
been called twice, and the run stops in the middle of its third pass. -/
example : DescribedNodes refSys ∧ Unused refSys refArgs.id ∧ DescribedEnd refArgs ∧
    CompleteRuns refArgs.id refSys [passYields refFirst.1] refMid ∧
    Tells refMid refWorld refArgs (aroundOf refMid refWorld refArgs) ∧
    Scripted refWorld refArgs refMid false refSecond.1 refSecond.2.1 .returned ∧
    passes refSecond.1 = 3 ∧
    (reference false (rule refSys (aroundOf refMid refWorld refArgs))
      (stop refArgs (aroundOf refMid refWorld refArgs)) refSys.queue 10
      ⟨[passYields refFirst.1], [], [], []⟩).before = passYields refSecond.1 := by
  have k1 := scriptAfter_scripted (w := refWorld) (a := refArgs) (s0 := refSys) (abs := false)
    (by decide +kernel) 200
  have k2 := scriptAfter_scripted (w := refWorld) (a := refArgs) (s0 := refMid) (abs := false)
    (by decide +kernel) 200
  have e1 : (scriptAfter refWorld refArgs refSys 200).2.2 = .returned := refFirst_run.2
  have e2 : (scriptAfter refWorld refArgs refMid 200).2.2 = .returned := refSecond_run.2
  rw [e1] at k1
  rw [e2] at k2
  refine ⟨ref_described, ⟨by rfl, by rfl, .new, noNWhen_sat ref_conds⟩, ref_end, .world _ (.run .nil rfl rfl ref_end.apart k1),
    C81_tells _ _ _ (ref_places (by decide +kernel)), k2, by decide +kernel, by decide +kernel⟩

/-! ## A run in absolute time -/

/-- Node 0 executes every 2 ms, node 1 at the multiples of 3 ms from 4 ms on, and node 2 after
every two calls of node 0; until 12 ms. -/
def refTimed : Sys Nat Nat Unit :=
  ((((Sys.new [(2, [0, 1])] .standard none 0 demoWorld).alloc 3).addBasic 0
    (.leaf 0 (.timeInterval (some ⟨2, 0⟩) none none true true))).addBasic 1
    (.leaf 1 (.timeInterval (some ⟨3, 0⟩) (some ⟨4, 0⟩) none true true))).addBasic 2
    (.leaf 2 (.everyNCalls 0 2))

def refTimedArgs : RunArgs Nat Nat Unit :=
  { id := none, esu := .leaf 20 (.timeTermination ⟨12, 0⟩ true), seq := .leaf 23 .never }

def refTimedRun := scriptAfter constWorld refTimedArgs refTimed 200

theorem refTimed_run : passYields refTimedRun.1 =
    [[[0], []], [[], []], [[0], [2]], [[], []], [[0], []], [[], []], [[0, 1], [2]], [[], []],
      [[0], []], [[1], []], [[0], [2]], [[], []]] ∧ refTimedRun.2.2 = .returned := by
  decide +kernel

theorem refTimed_conds : refTimed.conds.all (fun x => !isNWhen x.2) = true := by decide +kernel

theorem refTimed_described : DescribedNodes refTimed := by
  intro n hn
  have : n = 0 ∨ n = 1 ∨ n = 2 := by
    have e : refTimed.queue.flatten = [0, 1, 2] := by decide +kernel
    rw [e] at hn; simpa using hn
  rcases this with rfl | rfl | rfl
  · exact ⟨by decide +kernel, .inl ⟨_, rfl, .leaf (.inr rfl) fun _ =>
      ⟨by decide +kernel, by decide +kernel⟩⟩⟩
  · exact ⟨by decide +kernel, .inl ⟨_, rfl, .leaf (.inr rfl) fun _ =>
      ⟨by decide +kernel, by decide +kernel⟩⟩⟩
  · exact ⟨by decide +kernel, .inl ⟨_, rfl, .leaf rfl fun _ =>
      ⟨by decide +kernel, by decide +kernel⟩⟩⟩

theorem refTimed_places (i j n : Nat) (hi : At refTimed.queue i n) (hj : At refTimed.queue j n) :
    i = j := by
  have hs : refTimed.queue = [[0, 1], [2]] := by decide +kernel
  rw [hs] at hi hj
  obtain ⟨l, hl, hn⟩ := hi
  obtain ⟨m, hm, hn'⟩ := hj
  match i, j with
  | 0, 0 | 1, 1 => rfl
  | 0, 1 | 1, 0 => simp at hl hm; subst hl hm; simp at hn hn'; omega
  | i + 2, _ => simp at hl
  | _, j + 2 => simp at hm

/-- The hypotheses hold for this run; in absolute time the empty sets are yielded, too. -/
example : DescribedNodes refTimed ∧ Unused refTimed refTimedArgs.id ∧ DescribedEnd refTimedArgs ∧
    Tells refTimed constWorld refTimedArgs (aroundOf refTimed constWorld refTimedArgs) ∧
    Scripted constWorld refTimedArgs refTimed true refTimedRun.1 refTimedRun.2.1 .returned ∧
    (reference true (rule refTimed (aroundOf refTimed constWorld refTimedArgs))
      (stop refTimedArgs (aroundOf refTimed constWorld refTimedArgs)) refTimed.queue 20
      ⟨[], [], [], []⟩).before = passYields refTimedRun.1 := by
  have k1 := scriptAfter_scripted (w := constWorld) (a := refTimedArgs) (s0 := refTimed)
    (abs := true) (by decide +kernel) 200
  have e1 : (scriptAfter constWorld refTimedArgs refTimed 200).2.2 = .returned := refTimed_run.2
  rw [e1] at k1
  exact ⟨refTimed_described, ⟨by rfl, by rfl, .new, noNWhen_sat refTimed_conds⟩,
    fun st => ⟨.leaf trivial fun e => e.elim, .leaf trivial fun e => e.elim⟩,
    C81_tells _ _ _ refTimed_places, k1, by decide +kernel⟩

/-! ## `NWhen` and functions of the user -/

/-- Node 0 executes twice, at even passes; node 1 executes as long as the user says that node 0
is not finished. -/
def refLimited : Sys Nat Nat Unit :=
  (((Sys.new [(1, []), (0, [])] .standard none 0 (refWorld [])).alloc 3).addBasic 0
    (.nwhen 0 (.leaf 1 (.everyNPasses 2 .environment_state_update)) 2)).addBasic 1
    (.whileNot 2 fun v id _ => v.world.finished 0 id)

/-- Node 0 is finished after five sets. -/
def refUser (ys : List (List Nat)) : World Nat Nat Unit :=
  { demoWorld with finished := fun n _ => .ok (n == 0 && 5 ≤ ys.length) }

def refLimitedArgs : RunArgs Nat Nat Unit :=
  { id := none, esu := .leaf 20 (.afterNPasses 6 .environment_state_update), seq := .leaf 23 .never }

def refLimitedRun := scriptAfter refUser refLimitedArgs refLimited 200

theorem refLimited_run : passYields refLimitedRun.1 =
    [[[1, 0]], [[1]], [[1, 0]], [[1]], [[1]], [[]]] ∧ refLimitedRun.2.2 = .returned := by
  decide +kernel

theorem refLimited_described : DescribedNodes refLimited := by
  intro n hn
  have : n = 0 ∨ n = 1 := by
    have e : refLimited.queue.flatten = [1, 0] := by decide +kernel
    rw [e] at hn; simp at hn; omega
  rcases this with rfl | rfl
  · refine ⟨by decide +kernel, .inr (.inl ⟨_, _, _, rfl, .leaf (by show 1 < 2; decide) fun e => e.elim,
      by decide +kernel, fun m c' k' h => ?_⟩)⟩
    have := Dict.mem_of_get? h
    rcases List.mem_cons.1 this with h | h
    · cases h; rfl
    · rcases List.mem_cons.1 h with h | h <;> cases h
  · exact ⟨by decide +kernel, .inl ⟨_, rfl, .whileNot fun v v' id o o' h => by rw [h]⟩⟩

theorem refLimited_places (i j n : Nat) (hi : At refLimited.queue i n)
    (hj : At refLimited.queue j n) : i = j := by
  have hs : refLimited.queue = [[1, 0]] := by decide +kernel
  rw [hs] at hi hj
  obtain ⟨l, hl, hn⟩ := hi
  obtain ⟨m, hm, hn'⟩ := hj
  match i, j with
  | 0, 0 => rfl
  | i + 1, _ => simp at hl
  | _, j + 1 => simp at hm

/-- The hypotheses hold for this run. -/
example : DescribedNodes refLimited ∧ Unused refLimited refLimitedArgs.id ∧
    DescribedEnd refLimitedArgs ∧
    Tells refLimited refUser refLimitedArgs (aroundOf refLimited refUser refLimitedArgs) ∧
    Scripted refUser refLimitedArgs refLimited false refLimitedRun.1 refLimitedRun.2.1 .returned ∧
    (reference false (rule refLimited (aroundOf refLimited refUser refLimitedArgs))
      (stop refLimitedArgs (aroundOf refLimited refUser refLimitedArgs)) refLimited.queue 20
      ⟨[], [], [], []⟩).before = passYields refLimitedRun.1 := by
  have k1 := scriptAfter_scripted (w := refUser) (a := refLimitedArgs) (s0 := refLimited)
    (abs := false) (by decide +kernel) 200
  have e1 : (scriptAfter refUser refLimitedArgs refLimited 200).2.2 = .returned := refLimited_run.2
  rw [e1] at k1
  exact ⟨refLimited_described, ⟨by rfl, by rfl, .new, fun _ _ _ _ _ => by rfl⟩,
    fun st => ⟨.leaf (by show 1 < 2; decide) fun e => e.elim, .leaf trivial fun e => e.elim⟩,
    C81_tells _ _ _ refLimited_places, k1, by decide +kernel⟩

end GS.Props
